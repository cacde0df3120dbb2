{"id": "C01", "title": "Slot lookup returns the owner and only the owner", "statement": "For every slot table the cluster accepts, looking up a slot returns exactly the server whose published range contains that slot, and fails exactly when no published range contains it.", "quantifier": "every set of published ranges (any number of servers, any number of ranges, any publication order) and every slot number", "why_tests_cant": "The lookup is a binary search over a sorted array; correctness at every boundary for every table needs an argument about all tables, tests sample a few.", "anchors": ["src/common/hashslot/hash_slot.go: GetSlotIdentify, IsSlotInEdges, sortAndValidate, WrapSlots"]}
{"id": "C02", "title": "No slot has two owners", "statement": "If a set of published ranges is accepted, no two of the accepted ranges overlap, so no slot is ever routed to two different servers; and any set that contains an overlap or an empty range is refused.", "quantifier": "every multiset of published ranges", "why_tests_cant": "Validation only compares neighbours after sorting; that this excludes every overlapping pair is a statement about all inputs.", "anchors": ["src/common/hashslot/hash_slot.go: sortAndValidate, WrapSlots, WrapSlotsToEdges"]}
{"id": "C03", "title": "Every object key routes to exactly one metadata server when the table is complete", "statement": "Every key maps to a slot in 0..16383, and if the accepted table covers 0..16384 then every key is routed to exactly one server; routing is a function of the key alone (same key, same server).", "quantifier": "every byte string key and every accepted complete table", "why_tests_cant": "Quantifies over all keys and all complete tables.", "anchors": ["src/common/hashslot/hash_slot.go: CalcBytesSlot, GetStringIdentify, GetSlotIdentify", "src/apiserver/internal/usecase/logic/discovery_logic.go", "src/apiserver/internal/usecase/logic/hashslot_logic.go: KeySlotLocation"]}
{"id": "C04", "title": "Merging slot ranges is set union", "statement": "Giving a server additional slot ranges leaves it owning exactly the union of the old and new slots, stored as sorted, non-touching ranges.", "quantifier": "every two lists of well-formed ranges, in any order, possibly overlapping or adjacent", "why_tests_cant": "Merge code has many adjacency/containment cases; only a proof covers all combinations.", "anchors": ["src/common/hashslot/edge.go: CombineEdges"]}
{"id": "C05", "title": "Removing slot ranges is set difference", "statement": "Taking slot ranges away from a server leaves it owning exactly the slots it had and that were not taken, in sorted disjoint ranges.", "quantifier": "every sorted disjoint owned list and every list of removed ranges", "why_tests_cant": "Same: containment, left/right clipping and splitting cases in arbitrary combination.", "anchors": ["src/common/hashslot/edge.go: RemoveEdges"]}
{"id": "C06", "title": "A completed slot migration conserves the slot map", "statement": "After a migration of a range owned by the source, source and target together own exactly the slots they owned before, the target owns the migrated range, the source owns none of it, and no slot gains a second owner.", "quantifier": "every pair of disjoint ownership sets and every migrated range list owned by the source", "why_tests_cant": "Conservation is a global property of two updates on arbitrary tables.", "anchors": ["src/common/hashslot/edge.go", "src/common/hashslot/hash_slot.go", "src/metaserver/internal/usecase/service/hashslot_service.go"]}
{"id": "C07", "title": "Published slot ranges survive the text form", "statement": "Ranges published as text and read back by another server denote exactly the same ranges and owners.", "quantifier": "every list of well-formed ranges", "why_tests_cant": "Decimal print/parse round trip over all numbers.", "anchors": ["src/common/hashslot/hash_slot.go: Strings, formatInt, WrapSlotsToEdges"]}
{"id": "C08", "title": "A migration request is accepted only for slots the source owns", "statement": "A requested range passes the ownership check if and only if every slot of it is owned by the source server.", "quantifier": "every accepted table, every source and every requested range", "why_tests_cant": "The check walks clipped pieces of neighbouring ranges; all adjacency patterns matter.", "anchors": ["src/common/hashslot/hash_slot.go: FindRangeCurrentData, IsValidEdge, CopyOfEdges", "src/metaserver/internal/usecase/service/hashslot_service.go: PrepareMigrationTo, PrepareMigrationFrom"]}
{"id": "C09", "title": "Wildcard matching is glob matching", "statement": "A pattern with '*' and '?' accepts exactly the strings obtained by replacing each '*' with any string and each '?' with any single character.", "quantifier": "every pattern and every string", "why_tests_cant": "Recursive matcher over all pairs of strings.", "anchors": ["src/common/wildcard/wildcard.go: Match, MatchSimple, deepMatchRune"]}
{"id": "C10", "title": "Length-framed arrays decode to what was encoded", "statement": "A list of records encoded into one framed buffer decodes to the same list, in the same order; truncated buffers are reported as errors instead of silently decoding to something else.", "quantifier": "every list of records whose encodings have any length up to 2^31-1, and every truncation point", "why_tests_cant": "Round trip over all lists and lengths.", "anchors": ["src/common/util/util.go: EncodeArrayMsgp, DecodeArrayMsgp"]}
{"id": "C11", "title": "Integer codec round trip", "statement": "Every unsigned 64 bit number stored as bytes is read back unchanged.", "quantifier": "every 64-bit value", "why_tests_cant": "2^64 inputs.", "anchors": ["src/common/util/util.go: IntToBytes, BytesToInt"]}
{"id": "C12", "title": "Human readable sizes parse to the size they denote", "statement": "Parsing '<n><unit>' yields n*unit bytes, or an error when the result does not fit in 64 bits.", "quantifier": "every digit string and unit", "why_tests_cant": "Overflow boundary over all numbers; tests sample small sizes only.", "anchors": ["src/common/datasize/datasize.go: Parse, MustParse"]}
{"id": "C13", "title": "Pages partition the result list", "statement": "Walking pages 1,2,3,... of any page size over a list of any length returns every element exactly once, in order, and never slices out of range.", "quantifier": "every list length, page size >= 1 and page number >= 1", "why_tests_cant": "All lengths and page sizes, off-by-one on the last page.", "anchors": ["src/common/util/util.go: PagingOffset"]}
{"id": "C14", "title": "Listing across metadata servers is globally ordered and complete", "statement": "Walking the pages of the administrator's object and bucket lists returns every entry stored on any metadata server exactly once.", "quantifier": "every number of servers, every distribution of entries over servers, every page size", "why_tests_cant": "Scatter-gather paging is only right if every server's order agrees with the merge order; depends on all key pairs.", "anchors": ["src/adminserver/internal/usecase/logic/metadata_logic.go: MetadataPaging, BucketPaging", "src/common/proto/msg/metadata.go: Metadata.ID, Bucket.ID"]}
{"id": "C15", "title": "Object names are unique and creation never overwrites", "statement": "Creating metadata for a name that exists is refused and changes nothing; creating a fresh name makes it readable with the given content and leaves every other name untouched.", "quantifier": "every reachable store state, every name and content", "why_tests_cant": "All histories of the key-value store.", "anchors": ["src/metaserver/internal/usecase/logic/metadata_logic.go: AddMeta, GetMeta"]}
{"id": "C16", "title": "Version numbers are never reused while the object lives", "statement": "Each version added to an object gets a number strictly greater than every number handed out before for this object, whatever versions were removed in between (until the object, or all its versions, are deleted).", "quantifier": "every history of add/remove/update/migrate operations", "why_tests_cant": "Statement over all histories.", "anchors": ["src/metaserver/internal/usecase/logic/metadata_logic.go: AddVer, AddVerWithSequence, RemoveVer, RemoveAllVersion"]}
{"id": "C17", "title": "Asking for the latest version returns the newest version", "statement": "Reading an object without naming a version returns the version with the largest version number among those stored.", "quantifier": "every set of stored version numbers", "why_tests_cant": "Keys are ordered as text; whether that equals numeric order depends on all pairs of numbers.", "anchors": ["src/metaserver/internal/usecase/logic/metadata_logic.go: GetLastVersionNumber, GetVer", "src/metaserver/internal/usecase/service/metadata_service.go: GetVersion"]}
{"id": "C18", "title": "Version retention removes the oldest version", "statement": "When a bucket keeps n versions, storing one more version removes the oldest stored version, never a newer one, and at most n remain.", "quantifier": "every retention limit and every stored version set", "why_tests_cant": "Depends on first/last computation over all version sets.", "anchors": ["src/apiserver/internal/usecase/service/object_service.go: StoreObject", "src/apiserver/internal/controller/http/big_api.go: finishUpload", "src/metaserver/internal/usecase/logic/metadata_logic.go: GetExtra, GetFirstVersionNumber"]}
{"id": "C19", "title": "Stale updates never overwrite newer data", "statement": "An update carrying a timestamp not newer than the stored one is refused and changes nothing; an accepted update strictly advances the stored timestamp and keeps the fields the user cannot change (creation time, bucket, version number, content hash, unique id).", "quantifier": "every reachable state, every update, any arrival order", "why_tests_cant": "Order of arrival and all field values.", "anchors": ["src/metaserver/internal/usecase/logic/metadata_logic.go: UpdateMeta, UpdateVer", "src/metaserver/internal/usecase/logic/bucket_logic.go: Update"]}
{"id": "C20", "title": "Deleting an object deletes all of its versions and nothing else", "statement": "After an object is deleted neither it nor any of its versions can be read, other objects are untouched, and re-creating the same name starts with no versions.", "quantifier": "every reachable state and object", "why_tests_cant": "All histories, including similar names.", "anchors": ["src/metaserver/internal/usecase/logic/metadata_logic.go: RemoveMeta, RemoveAllVersion"]}
{"id": "C21", "title": "Lookup by content hash returns exactly the versions with that hash", "statement": "Searching versions by content hash returns every stored version with that hash and no other version.", "quantifier": "every history of version add/remove/delete/migrate operations", "why_tests_cant": "Secondary index consistency over all histories.", "anchors": ["src/metaserver/internal/usecase/logic/hash_index_logic.go", "src/metaserver/internal/usecase/repo/hash_index_repo.go: FindByHash", "src/metaserver/internal/usecase/logic/metadata_logic.go"]}
{"id": "C22", "title": "Retrying the same upload id stores one version", "statement": "Submitting a version with a unique id that is already stored does not create a second version, and a unique id whose version was removed can be stored again.", "quantifier": "every history of adds and removes with arbitrary unique ids", "why_tests_cant": "Exactly-once under retries is about all histories.", "anchors": ["src/metaserver/internal/usecase/logic/unique_id_index_logic.go", "src/metaserver/internal/usecase/logic/metadata_logic.go: AddVer, RemoveVer, AddVerWithSequence"]}
{"id": "C23", "title": "Index entries decode to the version they were written for", "statement": "The (object name, version number) pair written into a secondary index is recovered exactly when the index is read, whatever characters the name contains; two different pairs never share an entry.", "quantifier": "every name (any characters, including the separator) and number", "why_tests_cant": "All strings.", "anchors": ["src/metaserver/internal/usecase/logic/hash_index_logic.go: AddIndex, GetIndex", "src/metaserver/internal/usecase/logic/unique_id_index_logic.go"]}
{"id": "C24", "title": "Metadata operations are all-or-nothing", "statement": "An operation that reports an error leaves the visible metadata unchanged.", "quantifier": "every operation, argument and state, including failures in the middle", "why_tests_cant": "Every failure point of every operation.", "anchors": ["src/metaserver/internal/usecase/db/storage.go: Update, Batch, View", "src/metaserver/internal/usecase/logic/metadata_logic.go"]}
{"id": "C25", "title": "Version listing pages", "statement": "Listing versions page by page returns every stored version exactly once, at most page_size per page.", "quantifier": "every version count, page and page size", "why_tests_cant": "All page/size pairs.", "anchors": ["src/metaserver/internal/usecase/service/metadata_service.go: ListVersions", "src/metaserver/internal/usecase/logic/metadata_logic.go: ForeachVersionBucket", "src/metaserver/internal/usecase/repo/metadata_repo.go: ListVersions", "src/metaserver/internal/controller/http/version_rest.go: List"]}
{"id": "C26", "title": "Prefix listing is exact, ordered and limited", "statement": "Listing objects or buckets with a prefix and a limit returns the first `limit` stored names with that prefix in byte order, and reports their total number.", "quantifier": "every store content, prefix and limit", "why_tests_cant": "All stores.", "anchors": ["src/metaserver/internal/usecase/repo/metadata_repo.go: ListMetadata", "src/metaserver/internal/usecase/logic/bucket_logic.go: List"]}
{"id": "C27", "title": "Replicas that apply the same log are identical", "statement": "Two metadata replicas that apply the same sequence of replicated commands end in the same store state and gave the same answers, no matter how the commands were grouped into batches.", "quantifier": "every log, every batching, every starting state", "why_tests_cant": "All logs and all batch partitions.", "anchors": ["src/metaserver/internal/usecase/raftimpl/fsm_impl.go: Apply, ApplyBatch, applyMetadata, applyVersion, applyBucket"]}
{"id": "C28", "title": "Every change to metadata goes through the replicated log", "statement": "In cluster mode every client operation that changes the store is applied through the log; a server that is not the leader never changes its store on behalf of a client.", "quantifier": "every API operation, role and migration state", "why_tests_cant": "Needs a case analysis over the complete API x state table, not samples.", "anchors": ["src/metaserver/internal/controller/grpc/middleware.go", "src/metaserver/internal/controller/http/middleware.go", "src/metaserver/internal/usecase/raftimpl/raft_impl.go: ApplyRaft", "src/metaserver/internal/usecase/service/metadata_service.go"]}
{"id": "C29", "title": "Snapshot and restore reproduce the state", "statement": "A replica restored from a snapshot answers every read as the replica that wrote it; during the swap writes are refused, not lost.", "quantifier": "every state and every interleaving of writes with the restore", "why_tests_cant": "All states and interleavings.", "anchors": ["src/metaserver/internal/usecase/db/storage.go: Replace", "src/metaserver/internal/usecase/raftimpl/fsm_impl.go: Snapshot, Restore"]}
{"id": "C30", "title": "Cached reads are fresh", "statement": "A read served from the metadata cache returns what a read from the store would return at that moment.", "quantifier": "every interleaving of reads (with their asynchronous cache fill), writes and replicated applies", "why_tests_cant": "All schedules.", "anchors": ["src/metaserver/internal/usecase/repo/metadata_repo.go", "src/metaserver/internal/usecase/repo/metadata_cache_repo.go", "src/metaserver/internal/usecase/repo/batch_meta_repo.go", "src/metaserver/internal/usecase/repo/bucket_repo.go"]}
{"id": "C31", "title": "A server takes part in at most one migration and changes its slots only when idle", "statement": "Slot ownership is published only while no migration is active; a second migration request is refused until the first finished; every path (success, failure, timeout) returns the server to the idle state.", "quantifier": "every interleaving of migration requests, timeouts and completions", "why_tests_cant": "All schedules of a CAS state machine.", "anchors": ["src/metaserver/internal/usecase/db/hashslot_db.go", "src/metaserver/internal/usecase/service/hashslot_service.go"]}
{"id": "C32", "title": "Migration loses no object", "statement": "After a migration (successful or failed at any point) every object is still stored on the server that the published slot table names for it.", "quantifier": "every object set, every failure point", "why_tests_cant": "All crash points of the transfer loop.", "anchors": ["src/metaserver/internal/usecase/service/hashslot_service.go: AutoMigrate, FinishReceiveItem, ReceiveItem", "src/metaserver/internal/controller/grpc/hashslot_server.go"]}
{"id": "C33", "title": "Erasure coded write/read round trip", "statement": "An object written through the erasure coding stream in any sequence of chunk sizes and read back returns exactly the written bytes.", "quantifier": "every byte string, every chunking of the writes, every data/parity shard count and block size >= 1, every read buffer size", "why_tests_cant": "All contents, chunkings and shapes.", "anchors": ["src/apiserver/internal/usecase/service/rs_encoder.go", "src/apiserver/internal/usecase/service/rs_decoder.go", "src/apiserver/internal/usecase/service/rs_put_stream.go", "src/apiserver/internal/usecase/service/rs_get_stream.go"]}
{"id": "C34", "title": "Erasure coded objects survive up to `parity` lost shards", "statement": "With at most `parity_shards` shards unavailable the object is read back unchanged; with more the read fails with an error and never returns wrong bytes.", "quantifier": "every content and every set of lost shards", "why_tests_cant": "All loss patterns for all shapes.", "anchors": ["src/apiserver/internal/usecase/service/rs_decoder.go: getData, readData"]}
{"id": "C35", "title": "Every shard file has the announced size", "statement": "The number of bytes sent to each data server for an erasure coded object equals the shard size recorded in its metadata.", "quantifier": "every object size and shape", "why_tests_cant": "Sum of per-block ceilings versus ceiling of the sum, over all sizes.", "anchors": ["src/apiserver/config/config.go: RsConfig.ShardSize, BlockSize, FullSize", "src/apiserver/internal/usecase/service/rs_encoder.go: Flush"]}
{"id": "C36", "title": "Range reads return the tail of the object", "statement": "Reading from offset k returns exactly the bytes of the object from k on.", "quantifier": "every object and offset, erasure coded and replicated", "why_tests_cant": "All offsets versus block boundaries.", "anchors": ["src/apiserver/internal/usecase/service/rs_get_stream.go: Seek", "src/apiserver/internal/usecase/service/copy_get_stream.go: Seek", "src/common/request/range.go"]}
{"id": "C37", "title": "Reading repairs lost shards with the original bytes", "statement": "When a full read succeeds with lost shards, the shard files rewritten on the replacement servers are byte-identical to the lost ones and the recorded locations name a server holding each shard.", "quantifier": "every content, every loss pattern up to parity", "why_tests_cant": "All loss patterns.", "anchors": ["src/apiserver/internal/usecase/service/rs_decoder.go", "src/apiserver/internal/usecase/service/rs_get_stream.go: Close", "src/apiserver/internal/usecase/service/copy_fix_stream.go"]}
{"id": "C38", "title": "Replicated writes put identical bytes on every copy", "statement": "A replicated write that reports success stored the same complete content on every copy server; any single copy suffices to read it back.", "quantifier": "every content, chunking and replica count, every failure pattern", "why_tests_cant": "All failure patterns.", "anchors": ["src/apiserver/internal/usecase/service/copy_put_stream.go", "src/apiserver/internal/usecase/service/copy_get_stream.go"]}
{"id": "C39", "title": "An upload becomes visible only after its content was verified and committed", "statement": "If the uploaded bytes do not match the announced digest, or committing a shard fails, the upload is rejected and no version is recorded; a read can never see a partially committed upload; each temp upload is committed or aborted at most once.", "quantifier": "every content, digest, failure point and repetition of Commit/Close", "why_tests_cant": "All failure points.", "anchors": ["src/apiserver/internal/usecase/service/object_service.go: StoreObject, streamToDataServer", "src/apiserver/internal/usecase/service/put_stream.go: Commit, Close"]}
{"id": "C40", "title": "Resumable uploads append exactly at the acknowledged offset", "statement": "A patch request is accepted only if it starts at the acknowledged offset; after any sequence of accepted patches the acknowledged bytes are a prefix of the concatenation of what the client sent, and completion happens exactly when all announced bytes arrived.", "quantifier": "every sequence of patch requests with any offsets and lengths", "why_tests_cant": "All request histories.", "anchors": ["src/apiserver/internal/controller/http/big_api.go: Patch", "src/apiserver/internal/usecase/service/rs_resumable_stream.go"]}
{"id": "C41", "title": "Locating an object returns one holder per shard", "statement": "When locating succeeds, the returned list names for every shard index a server that answered for this index.", "quantifier": "every set, order and duplication of answers", "why_tests_cant": "All answer interleavings.", "anchors": ["src/apiserver/internal/usecase/service/object_service.go: LocateObject", "src/objectserver/internal/usecase/service/locate.go"]}
{"id": "C42", "title": "Deduplication never confuses two different objects", "statement": "Two uploads share stored data only if they have the same content digest and the same storage layout.", "quantifier": "every pair of digests and layouts", "why_tests_cant": "Key injectivity over all pairs.", "anchors": ["src/apiserver/internal/usecase/service/object_service.go: UniqueHash", "src/apiserver/internal/controller/http/objects_api.go: Put"]}
{"id": "C43", "title": "Requests pass authentication exactly when some credential is valid", "statement": "With authentication enabled a request reaches the API iff its path is whitelisted or at least one configured check accepts it; with authentication disabled every request passes.", "quantifier": "every configuration, list of checks, and request", "why_tests_cant": "All combinations of checks.", "anchors": ["src/apiserver/internal/usecase/componet/auth/auth_middleware.go", "src/apiserver/internal/usecase/componet/auth/password_validator.go", "src/apiserver/internal/usecase/componet/auth/callback_validator.go"]}
{"id": "C44", "title": "Round robin placement spreads shards evenly and picks distinct servers", "statement": "Selecting k servers out of n yields k distinct servers when k <= n, and over any number of selections no server is used more than one time more often than another.", "quantifier": "every server list and every number of selections", "why_tests_cant": "All n, k and starting offsets.", "anchors": ["src/apiserver/internal/usecase/componet/selector/selectors.go: IPSelector.Select", "src/apiserver/internal/usecase/logic/discovery_logic.go: SelectDataServer"]}
{"id": "C45", "title": "Random placement picks distinct servers", "statement": "The random selection of k out of n servers never selects a server twice while unused servers remain, whatever the random numbers are.", "quantifier": "every random sequence, n and k", "why_tests_cant": "All random outcomes.", "anchors": ["src/apiserver/internal/usecase/componet/selector/random_selector.go"]}
{"id": "C46", "title": "Free-space placement prefers the emptiest servers", "statement": "Free-space-first selection returns a least loaded server among the candidates.", "quantifier": "every load table", "why_tests_cant": "All load tables.", "anchors": ["src/apiserver/internal/usecase/componet/selector/space_first_selector.go"]}
{"id": "C47", "title": "Object keys identify (bucket, object) pairs", "statement": "Objects with different bucket or name never share stored metadata.", "quantifier": "every pair of bucket/name strings", "why_tests_cant": "All strings, including separators.", "anchors": ["src/apiserver/internal/usecase/grpcapi/meta_server.go", "src/apiserver/internal/usecase/webapi/meta_server.go", "src/metaserver/internal/controller/http/metadata_rest.go"]}
{"id": "C48", "title": "Data server stores and returns exactly the bytes of a shard", "statement": "A shard stored on a data server in any number of appended pieces and read back with its recorded size is exactly the concatenation of the pieces, although files are padded to 4096 byte blocks.", "quantifier": "every sequence of pieces of any length", "why_tests_cant": "Alignment arithmetic for all lengths.", "anchors": ["src/objectserver/internal/usecase/service/objects_service.go: WriteFileWithSize, AppendFileAligned, GetFile", "src/common/system/disk/aligend_reader.go"]}
{"id": "C49", "title": "Aligned readers deliver the content followed only by padding", "statement": "The padded reader delivers the source followed by zeros up to the next multiple of 4096, the limited reader delivers exactly the first n bytes, for any buffer sizes the caller uses.", "quantifier": "every content, limit and sequence of aligned buffer sizes", "why_tests_cant": "All buffer sequences.", "anchors": ["src/common/system/disk/aligend_reader.go: AlignedReader, AlignedLimitedReader, AlignedSize", "src/common/system/disk/multi_reader.go"]}
{"id": "C50", "title": "Reading a shard with an offset does not change later reads", "statement": "Any sequence of reads with any offsets returns the bytes requested, whether or not the in-memory cache answers.", "quantifier": "every sequence of reads with arbitrary offsets and sizes", "why_tests_cant": "All read histories.", "anchors": ["src/objectserver/internal/usecase/service/objects_service.go: Get, GetFromCache, GetFile", "src/objectserver/internal/controller/http/objects/objects_rest.go"]}
{"id": "C51", "title": "The shard path database returns the most recently recorded path", "statement": "After recording paths for a name, the lookup returns the most recent one that was not removed, and reports not-found exactly when none is left.", "quantifier": "every history of put/remove, every path string", "why_tests_cant": "All histories and strings (encoding of separators).", "anchors": ["src/objectserver/internal/db/object_path_cache.go: Put, Get, GetLast, GetAll, Remove"]}
{"id": "C52", "title": "Drive choice prefers the drive with the most free space", "statement": "A new shard is written to a drive with maximal free space among the allowed drives.", "quantifier": "every drive table", "why_tests_cant": "All tables.", "anchors": ["src/objectserver/internal/usecase/component/driver_balancer.go", "src/objectserver/internal/usecase/component/driver_manager.go"]}
{"id": "C53", "title": "Rebalancing moves exactly the surplus", "statement": "Planned transfers never take more from a server than its surplus, never send a server more than its deficit, and when joining the plan balances all capacities to the average.", "quantifier": "every capacity table", "why_tests_cant": "All tables; greedy matching argument.", "anchors": ["src/objectserver/internal/usecase/service/migration_service.go: DeviationValues, SendingTo"]}
{"id": "C54", "title": "Parallel task groups report the first error and wait for all", "statement": "Waiting on a task group returns an error if any task reported one before finishing, and returns only after all tasks finished or an error occurred.", "quantifier": "every interleaving of Todo/Done/Error/Wait", "why_tests_cant": "All schedules.", "anchors": ["src/common/util/done_group.go"]}
{"id": "C55", "title": "Service discovery names the right server", "statement": "The discovery map contains exactly the registered servers, keyed by their server id, and the master/slave views select by the registered role.", "quantifier": "every sequence of register/unregister events, every server id", "why_tests_cant": "All event orders and id strings.", "anchors": ["src/common/registry/etcd_discovery.go", "src/common/registry/etcd_registry.go", "src/common/registry/service_list.go"]}
{"id": "C56", "title": "Bucket administration", "statement": "Creating a bucket twice is refused, updates require a newer timestamp and keep the creation time, deletion is idempotent, and every other bucket is unaffected.", "quantifier": "every history of bucket operations", "why_tests_cant": "All histories.", "anchors": ["src/metaserver/internal/usecase/logic/bucket_logic.go", "src/metaserver/internal/usecase/repo/bucket_repo.go"]}
{"id": "C57", "title": "Range header parsing", "statement": "A 'bytes=a-b' header yields exactly the interval a..b, an open 'bytes=a-' yields a to the end, and malformed headers are refused.", "quantifier": "every header string", "why_tests_cant": "All strings.", "anchors": ["src/common/request/range.go"]}
{"id": "C58", "title": "Slice and math helpers behave as documented for every input", "statement": "Fill sets every element, chunk helpers cover the list without loss, Remove/RemoveFirst/Last behave as on lists, modular index stays in range, extremal index finds an extremum.", "quantifier": "every slice and argument", "why_tests_cant": "All lengths.", "anchors": ["src/common/util/slices/slices.go", "src/common/util/math/math.go"]}
{"id": "C59", "title": "Concurrent set/map/cache helpers are maps", "statement": "The shared set, the typed concurrent map and the cache wrapper behave like the abstract set/map they represent; in particular storing reports success when it stored.", "quantifier": "every operation history", "why_tests_cant": "All histories.", "anchors": ["src/common/collection/set/map_set.go", "src/common/util/sync_map.go", "src/common/cache/cache.go"]}
{"id": "C60", "title": "Write protection of read-only buckets and retention configuration", "statement": "An upload into a read-only bucket is refused without storing anything; a bucket that prescribes a storage layout overrides the layout requested by the client.", "quantifier": "every bucket configuration and request", "why_tests_cant": "All configurations.", "anchors": ["src/apiserver/internal/usecase/service/object_service.go: StoreObject", "src/apiserver/internal/controller/http/objects_api.go"]}
{"id": "C61", "title": "Writes are only accepted by the owner of the key's slot", "statement": "A request that would change what is stored under a key is refused by a server whose slots do not contain the key, and by a server that is migrating slots.", "quantifier": "every key, slot assignment, server status and request", "why_tests_cant": "The combinations of request kind, transport, server status and slot assignment are unbounded, and the gaps are single combinations.", "anchors": ["src/metaserver/internal/controller/http/middleware.go: CheckKeySlot, CheckInNormal", "src/metaserver/internal/controller/grpc/middleware.go: CheckKeySlot, CheckWritable"]}
{"id": "C62", "title": "Restarting a replica or redelivering a command changes nothing", "statement": "Re-applying the command log to the persisted store after a restart, or applying a command a second time, leaves what is stored unchanged.", "quantifier": "every log of commands of any length and every restart point", "why_tests_cant": "Only particular pairs of commands separated by arbitrarily many others are affected; a test exercises a few logs.", "anchors": ["src/metaserver/internal/usecase/raftimpl/fsm_impl.go: Apply, ApplyBatch", "src/metaserver/internal/usecase/repo/metadata_repo.go: LastAppliedIndex, ApplyIndex"]}
{"id": "C63", "title": "A bucket keeps no more versions than configured", "statement": "However often an object is uploaded, the number of its recorded versions does not exceed the bucket's limit (one without versioning), and the version just uploaded is kept.", "quantifier": "every bucket configuration and every number and overlap of uploads", "why_tests_cant": "The bound concerns arbitrarily long histories; the gaps need overlapping uploads.", "anchors": ["src/apiserver/internal/usecase/service/object_service.go: StoreObject", "src/apiserver/internal/controller/http/big_api.go: finishUpload"]}
{"id": "C64", "title": "Resumable uploads are read with the layout they were written with", "statement": "The erasure coding configuration used to read an object uploaded through the resumable API is the one used to write it.", "quantifier": "every configuration, bucket and object size", "why_tests_cant": "Only particular combinations of shard counts, block sizes and bucket settings differ.", "anchors": ["src/apiserver/internal/entity/metadata.go: MakeConf", "src/apiserver/internal/usecase/service/object_service.go: NewStreamProvider", "src/apiserver/internal/controller/http/big_api.go: Post, Patch"]}
{"id": "C65", "title": "The authentication callback is asked about the bucket the request acts on", "statement": "With callback authentication, a request that passes was allowed by the callback for the very bucket, object and method the request acts on.", "quantifier": "every request and every callback policy", "why_tests_cant": "Requires all combinations of host and bucket headers; tests use consistent ones.", "anchors": ["src/apiserver/internal/usecase/componet/auth/callback_validator.go: Middleware", "src/apiserver/internal/entity/dto.go", "src/apiserver/internal/controller/http/metadata_api.go"]}
{"id": "C66", "title": "Configured block sizes are aligned to the packet size", "statement": "After loading a configuration the stripe size of erasure coding and the block size of replication are multiples of the packet size, not smaller than configured, and larger by less than a packet.", "quantifier": "every configured size and number of data shards", "why_tests_cant": "Arithmetic for all numbers of shards.", "anchors": ["src/apiserver/config/config.go: initialize"]}
{"id": "C67", "title": "A stored shard is found until it is deleted, and can then be stored again", "statement": "A data server that answered a store or commit of a shard with success finds and returns this shard with its content until it is deleted; after a deletion it is not found and can be stored again.", "quantifier": "every history of requests on a shard, every choice of drives and every interleaving of the background goroutines that record paths and existence marks", "why_tests_cant": "Failures need particular interleavings of goroutines with later requests, or long histories with several drives and cache evictions.", "anchors": ["src/objectserver/internal/usecase/service/objects_service.go: Exist, FindRealStoragePath, Put, Get, Delete, CommitFile", "src/objectserver/internal/usecase/component/driver_manager.go: FindMountPath", "src/objectserver/internal/db/object_path_cache.go"]}
{"id": "C68", "title": "A moved shard is deleted at its old server only when its new place is known", "statement": "When a data server deletes a shard after moving it to another server, the receiver holds the same content and every version record of that content, on every metadata server, names the receiver for this shard.", "quantifier": "every metadata store, every number of metadata masters, every failure of the connections and every previous file at the receiver", "why_tests_cant": "Failures need particular histories of deletions of objects with the same content, or a single unreachable master at the wrong moment.", "anchors": ["src/objectserver/internal/usecase/service/migration_service.go: sendFileTo, SendingTo, FinishObject, OpenFile", "src/objectserver/internal/controller/grpc/migration_server.go: ReceiveData, FinishReceive", "src/metaserver/internal/usecase/repo/metadata_repo.go: UpdateLocateByHash"]}
{"id": "C69", "title": "A server stays registered", "statement": "As long as it has not been closed, the life-cycle loop tells its subscribers every lease etcd grants, so that a server registers again as soon as etcd answers after any failure, and a request for the current lease always answers with the latest one.", "quantifier": "every sequence of answers of etcd: grants, refused grants, lost leases, refused or ended keep-alives, close at any round", "why_tests_cant": "A failing grant needs etcd to be unreachable at the exact moment a lease is renewed; the consequence is a hang, not an error.", "anchors": ["src/common/registry/etcd_lifecycle.go: DeadLoop, Lease, notifying, Close", "src/common/registry/etcd_registry.go: Register"]}
{"id": "C70", "title": "Performance records are read back by kind and action", "statement": "After any sequence of records has been stored, a query by kind, by action, by both or by neither returns exactly the stored records that meet the conditions, each once, with its kind, action and cost; the reported size is their number; average and sum contain exactly one entry per kind and action that occurs, with the mean and total of the costs; clearing a kind removes exactly its records.", "quantifier": "every history of stored records and every pair of conditions", "why_tests_cant": "The records are kept in two orders under generated keys; whether a name that extends another one is mixed up depends on the characters that follow.", "anchors": ["src/common/performance/local_store.go: Put, Get, Size, Clear", "src/common/performance/store.go: Average, Sum"]}
{"id": "C71", "title": "The collector loses no performance record", "statement": "The collector hands every record it was given to the store exactly once and in order, whatever the store answers; when configured to drop instead of flushing, it keeps exactly the latest records up to the limit; and its memory never exceeds the configured limit.", "quantifier": "every history of calls and every sequence of answers of the store", "why_tests_cant": "Loss and growth need a store that fails while records keep coming.", "anchors": ["src/common/performance/collector.go: Put, Flush, Close, startAutoFlush"]}
{"id": "C72", "title": "A GET returns what the PUT stored, whatever else happens", "statement": "When a PUT is answered with a version number, a GET of that number of the object returns exactly the bytes of that PUT until the version, the object or all its versions are removed, provided enough of the servers recorded for the version answer. This holds for any number of concurrent uploads of equal and different contents, whether a content is uploaded or found, with failing and unanswered requests at any point; and no number is readable under which no upload is stored.", "quantifier": "every execution: all interleavings of all requests of all uploads, with all failures, and every set of answering servers", "why_tests_cant": "It relates the client-visible results of two requests across three kinds of servers; the dangerous executions are overlaps of deduplication, commits and failures.", "anchors": ["src/apiserver/internal/usecase/service/object_service.go: StoreObject, streamToDataServer, LocateObject, GetObject, UniqueHash", "src/apiserver/internal/usecase/service/rs_put_stream.go, rs_encoder.go, copy_put_stream.go, rs_get_stream.go, rs_decoder.go, copy_get_stream.go", "src/metaserver/internal/usecase/logic/metadata_logic.go: AddVer", "src/objectserver/internal/usecase/service/objects_service.go: CommitFile, GetFile"]}
{"id": "C73", "title": "Records survive their binary form", "statement": "Every record that is stored or sent in binary form (versions, object metadata, buckets, raft log entries, slot tables, the admin credential, system samples) is read back exactly as it was written, whatever the variable it is read into held before and whatever bytes follow; a reader accepts the fields in any order and skips fields it does not know; different records have different bytes; a record cut off at any point is reported as an error instead of being read as something else.", "quantifier": "every record whose numbers fit the types of its fields, every order of the fields, every set of unknown fields of any nesting, every cut", "why_tests_cant": "The encoding has a dozen length and sign boundaries per field, and torn or mixed-version data is not produced by unit tests.", "anchors": ["src/common/proto/msg/metadata_gen.go", "src/metaserver/internal/entity/raft_data_gen.go", "src/common/hashslot/slot_info_gen.go", "src/apiserver/internal/usecase/componet/auth/credential/admin_credential_gen.go", "src/common/system: *_gen.go", "src/common/util/util.go: EncodeMsgp, DecodeMsgp"]}
{"id": "C74", "title": "Errors keep their meaning between the servers", "statement": "Every request the API server sends to a metadata server reports an error of the metadata service with the right HTTP status: 404 for missing data, 400 for requests that conflict with the stored data, 500 for anything else. No error is turned into success. An attempt to create an existing object is recognisable as such.", "quantifier": "every request type and every error of the metadata service", "why_tests_cant": "Tests use one server and check the success path; the status passes through four conversions in two programs.", "anchors": ["src/common/response/response.go: FailErr, GRPCError, ServiceUnavailableMsg", "src/common/proto/generate.go: ResolveErr", "src/metaserver/internal/controller/grpc/metadata_server.go", "src/apiserver/internal/usecase/grpcapi/meta_server.go", "src/apiserver/internal/usecase/repo/meta_repo.go: Insert"]}
{"id": "C75", "title": "What the API server saves it reads back", "statement": "Saving a version of an existing object through the metadata server succeeds, and reading the version number that was answered returns exactly the saved version with that number and the time of saving, also after any number of further writes. A request that is refused changes nothing. Buckets and objects are read back as they were saved. Reading something that does not exist is answered with 404.", "quantifier": "every reachable store, every version, bucket and object whose fields are in the range of their types, every sequence of later write requests", "why_tests_cant": "The data crosses two type conversions, a generated codec and a validation in each direction; tests use small numbers and full records.", "anchors": ["src/apiserver/internal/usecase/grpcapi/meta_server.go", "src/metaserver/internal/controller/grpc/metadata_server.go", "src/metaserver/internal/usecase/service/metadata_service.go: AddVersion, AddMetadata, GetMetadata", "src/common/proto/msg/metadata.go"]}
{"id": "C76", "title": "The monitoring pages show the newest samples of every server", "statement": "The usage pages of the admin server show for every server exactly its newest 59 readable samples in order, the CPU and memory values of the same samples; unreadable samples, deletions and samples of other servers do not matter. The server page lists exactly the discovered servers with the information they published. The overview shows the average of a service.", "quantifier": "every sequence of events of the configuration store, every server id without a slash, every content of the published values, every order of map iteration", "why_tests_cant": "The lists wrap around only after an hour of samples and map iteration order is random.", "anchors": ["src/adminserver/internal/usecase/db/server_stat_db.go: Append, addStat, watching, init", "src/adminserver/internal/usecase/logic/server_monitor.go: SysInfo, ServerStat, StatTimeline, StatTimeLineOverview", "src/common/cst/etcd_prefix.go: FmtSystemInfo"]}
{"id": "C77", "title": "Panics of goroutines are contained", "statement": "A goroutine that defers graceful.Recover never ends the process: its panic is recovered, the given callback runs once with the text, and the panic is logged. A task of a DoneGroup that panics is counted as done and its panic is delivered as the error of the group.", "quantifier": "every body of the goroutine, every callback, every state, every further deferred functions that leave the panic alone", "why_tests_cant": "Tests would have to panic in background goroutines of the servers and observe the process.", "anchors": ["src/common/graceful/recover.go: Recover, PrintStacks", "src/common/util/done_group.go: Done, Error, limitDoneGroup.Done"]}
{"id": "C78", "title": "A group of metadata servers keeps its slots", "statement": "The slots recorded for a group of metadata servers, or for a server that works alone, are those that were assigned to it: first by the configuration of its first leader, then by finished migrations. Leader changes, crashes, orderly restarts, failed writes and servers that join do not change them.", "quantifier": "every sequence of leader changes, migrations, shutdowns, crashes, starts and joins of any number of servers and groups, with failing writes", "why_tests_cant": "Only sequences of several servers with a migration in between show it; tests use one server.", "anchors": ["src/metaserver/internal/usecase/service/hashslot_service.go: OnLeaderChanged", "src/metaserver/internal/usecase/logic/hashslot_logic.go: SaveToEtcd, GetById", "src/metaserver/internal/usecase/logic/raft_cluster_logic.go: UpdateConfiguration", "src/metaserver/internal/app/app.go: Run", "src/metaserver/internal/usecase/db/hashslot_db.go: reloadProvider"]}
{"id": "C79", "title": "The configured nodes are the members of the raft group", "statement": "After every successful command to add, remove, join or leave, the list of nodes in the configuration of a leader names exactly the members of its group. A server that joined is a member of the group of its new leader and of no other group; a server that left is no member. Bootstrapping makes a group of the configured nodes, or of the server itself.", "quantifier": "every membership, every list of nodes, every command with every server id and address", "why_tests_cant": "The commands need a running cluster of several raft servers; the configuration matters at the next start only.", "anchors": ["src/metaserver/internal/controller/grpc/raft_cmd_server.go: Bootstrap, AddVoter, RemoveFollower, LeaveCluster, JoinLeader", "src/metaserver/config/config.go: ClusterConfig"]}
{"id": "C80", "title": "Uploads to a data server are kept apart, and nothing stays behind when they end", "statement": "A temporary object on a data server consists of exactly the bodies sent to it, in order, until it is committed, deleted, expires or the server restarts, whatever other uploads and the cleaners do. A commit makes its bytes the object of its name on its mount point unless there is one already. Once an upload has ended and the notifications are handled, its temporary file is gone.", "quantifier": "every sequence of requests to any number of temporary objects on any mount points, with expiry, cleaners, leaving, joining and restarts interleaved at every step", "why_tests_cant": "Tests upload one object on one mount point and do not wait for the cleaners.", "anchors": ["src/objectserver/internal/controller/http/temp/temp_rest.go", "src/objectserver/internal/controller/http/temp/temp_mid.go", "src/objectserver/internal/usecase/service/temp_service.go", "src/objectserver/internal/usecase/service/objects_service.go: CommitFile, DeleteFile", "src/common/cache/cache.go: onRemove, NotifyEvicted"]}
{"id": "C81", "title": "Metadata servers route by a recent slot table", "statement": "The table by which a metadata server decides who owns a slot is what etcd held at some moment that lies at most five minutes, plus the duration of a refresh, before the call; tables never go back in time; asking for a reload gives a table that is not older than the call.", "quantifier": "every interleaving of any number of concurrent callers, with every history of etcd, failing reads and refreshes of any bounded duration", "why_tests_cant": "Needs several goroutines refreshing at the same time and changes of etcd in between.", "anchors": ["src/metaserver/internal/usecase/db/hashslot_db.go: GetEdgeProvider, IsExpired, reloadProvider"]}
{"id": "C82", "title": "The shared performance store keeps the records it is given", "statement": "As long as etcd works, every record of an allowed action that is put into the shared performance store is returned, with its kind, action and cost, by reads for its kind and action; records of other actions are not stored; the store never holds more than 100000 records.", "quantifier": "every sequence of Put calls with any records, clock readings and answers of Size, and every library behaviour of Txn.Then", "why_tests_cant": "Needs batches of every size, clock coincidences, stores at their limit and all texts of durations.", "anchors": ["src/common/performance/etcd_store.go: Put, Get, Size, checkSize, removeOldKeys", "src/common/performance/collector.go: Put, Flush"]}
{"id": "C83", "title": "Administrative operations need a valid credential", "statement": "The administration server changes the cluster or shows its contents only for a request that carries a token the API server accepts, in its header or through the session started by a successful login; the session serves requests until logout, after which the cookie holds no token.", "quantifier": "every request (cookie, header, route), every behaviour of the API server, and every sequence of requests of a browser", "why_tests_cant": "Needs all combinations of cookie, header and route, and sequences around login and logout.", "anchors": ["src/adminserver/internal/controller/http/auth.go", "src/adminserver/internal/controller/http_server.go: NewHttpServer", "src/adminserver/internal/controller/http/{metadata,object,server_state}.go: Register and handlers"]}
{"id": "C84", "title": "A bucket request concerns the bucket its path names", "statement": "GET, PUT and DELETE under /v1/bucket/<segment> read, change and remove the bucket whose name the segment encodes: an update replaces its settings and keeps its time of creation, a deletion removes it, and no other bucket changes.", "quantifier": "every name, every spelling of it as a path segment, every body, every set of buckets, slot table and master server", "why_tests_cant": "Depends on how two servers split, decode and re-encode a path; names with reserved characters and unusual spellings are unlimited, and success is answered when another bucket was removed.", "anchors": ["src/apiserver/internal/controller/http/server.go: NewHttpServer", "src/apiserver/internal/controller/http/bucket_api.go", "src/apiserver/internal/usecase/repo/bucket_repo.go", "src/apiserver/internal/usecase/webapi/bucket_api.go: PutBucket, DeleteBucket", "src/metaserver/internal/controller/http/bucket_rest.go", "src/metaserver/internal/controller/http/http.go: NewHttpServer"]}
{"id": "C85", "title": "A request means what its path, its headers and its query say", "statement": "PUT and GET /objects/<name>, POST /big/<name>, GET /metadata/<name>, GET /metadata/<name>/versions, POST /temp/<name> and PATCH /version/locate are accepted exactly if the required parts are present and the numbers and flags are readable, and then act on the object named in the path, the bucket of the header, and the values of the documented parameters; the authentication callback has been asked about that object and bucket.", "quantifier": "every request: every set of route parameters, headers, query parameters and body members; every request type and order of bindings for the general part", "why_tests_cant": "Requests may carry any further names; a parameter that happens to have the Go name of a field, or an error in any binding but the last, shows only with the exact request that has it.", "anchors": ["src/apiserver/internal/entity/binder.go: Bind, BindAll", "src/apiserver/internal/entity/dto.go", "src/apiserver/internal/controller/http/metadata_api.go", "src/objectserver/internal/controller/http/temp/temp_rest.go: Post", "src/metaserver/internal/entity/binder.go", "src/metaserver/internal/controller/http/version_rest.go: UpdateLocates", "src/apiserver/internal/usecase/componet/auth/callback_validator.go: Middleware"]}
{"id": "C86", "title": "A data server does what the API server asked for", "statement": "Every request the API server builds for a data server (creating, filling, measuring, reading, committing and removing temporary objects; reading, measuring and storing shards) is read by the data server as the same request, with the same name, size, offset and compression flag, or refused if it asks for nothing (size 0); two different requests never look alike, different shards have different names, and the size a data server reports is the size the API server understands.", "quantifier": "every request, every name a shard or a temporary object can have, all 64-bit sizes and offsets", "why_tests_cant": "Both sides are written apart: a number that is formatted one way and parsed another, or a character that has a meaning in URLs, shows only for the values concerned.", "anchors": ["src/apiserver/internal/usecase/webapi/object_server.go", "src/objectserver/internal/controller/http/router.go", "src/objectserver/internal/controller/http/temp/temp_rest.go", "src/objectserver/internal/controller/http/objects/objects_rest.go", "src/common/request/range.go"]}
{"id": "C87", "title": "Compression is invisible", "statement": "An object stored with compression (asked for by the client or imposed by the bucket) reads back byte for byte like one stored without, as a whole and in parts, erasure coded or replicated, uploaded at once or resumably, after repair, with any tolerated number of servers missing: the recorded flag is the one its files were written with, and offsets count bytes of the object.", "quantifier": "every content, every way of cutting it into pieces, every codec meeting the contract of the library, both strategies, all buffer sizes, offsets and sets of answering servers", "why_tests_cant": "Test contents compress to a similar size or are read as a whole; a range read of a compressed object or a resumable upload with compression needs that very combination.", "anchors": ["src/objectserver/internal/usecase/service/objects_service.go: GetFileCompress, AppendFileCompress, CommitFile, Put, Get", "src/apiserver/internal/usecase/service/get_stream.go", "src/apiserver/internal/usecase/service/rs_get_stream.go: provideGetStream", "src/apiserver/internal/usecase/service/copy_get_stream.go", "src/apiserver/internal/usecase/service/rs_resumable_stream.go", "src/apiserver/internal/controller/http/big_api.go: Patch"]}
{"id": "C88", "title": "Administration pages act on what they name", "statement": "The upload page stores a file under its name in the bucket of the page, the download page and the page of versions read the object, bucket and version they are asked for and nothing else, and the bucket pages change exactly the bucket they name; in particular what was uploaded under a name is downloaded under it.", "quantifier": "every file, object and bucket name (any bytes), every bucket, version, page and page size, every state of the cluster", "why_tests_cant": "Names in tests are made of letters and digits; the encodings differ only for certain punctuation, and each page is tested alone.", "anchors": ["src/adminserver/internal/usecase/webapi/api_server.go", "src/adminserver/internal/controller/http/object.go", "src/adminserver/internal/controller/http/metadata.go", "src/adminserver/internal/usecase/logic/object_logic.go", "src/apiserver/internal/controller/http/server.go", "src/apiserver/internal/controller/http/objects_api.go", "src/apiserver/internal/controller/http/metadata_api.go"]}
{"id": "C89", "title": "A data server reports the bytes it stores", "statement": "The capacity a data server reports is, once the tasks of all requests have run, the number of bytes of the shards it stores, whatever was uploaded, committed, deleted, received from other servers or found at start; so a server that leaves sends all it has.", "quantifier": "all sequences of uploads, commits, deletions, receptions, announcements, goroutine schedules and restarts, all sizes, all directory layouts", "why_tests_cant": "The counter is only read when servers join or leave; tests check single operations and never compare it with the disk after overlapping or repeated ones.", "anchors": ["src/objectserver/internal/db/object_capacity_db.go", "src/objectserver/internal/usecase/service/objects_service.go", "src/objectserver/internal/usecase/service/migration_service.go", "src/objectserver/internal/usecase/service/common.go"]}
{"id": "C90", "title": "A data server can leave and join again", "statement": "After any sequence of join and leave commands the background tasks of a data server run exactly when its last command was a join, each started and stopped once per opening; and a server that was told to join is registered under a valid lease once nothing is left to do.", "quantifier": "all sequences of joins and leaves, all interleavings of the commands, the functions they run, the loops that keep leases and the goroutines that register, all losses of leases", "why_tests_cant": "Tests start a server once; the second join of one process, the order of goroutines and overlapping commands are not reached.", "anchors": ["src/objectserver/internal/usecase/pool/instance.go", "src/objectserver/internal/app/app.go", "src/objectserver/internal/controller/grpc/migration_server.go", "src/common/registry/etcd_lifecycle.go", "src/common/registry/etcd_registry.go"]}
{"id": "C91", "title": "A metadata server is registered in the role it has", "statement": "Whenever no change is being handled and its lease is valid, a metadata server of a raft group is registered exactly once, as master when it leads its group and as slave otherwise, however leadership and leases have changed.", "quantifier": "all sequences of leadership changes, lost and granted leases, and all interleavings of the goroutines that handle them", "why_tests_cant": "Leadership changes in quick succession and leases that are lost at that moment depend on timing that tests do not control.", "anchors": ["src/metaserver/internal/usecase/raftimpl/raft_impl.go", "src/metaserver/internal/usecase/logic/registry_logic.go", "src/metaserver/internal/app/app.go", "src/common/registry/etcd_registry.go", "src/common/registry/etcd_lifecycle.go"]}
{"id": "C92", "title": "A resume token permits the upload it was given out for", "statement": "Whatever requests users send, a PATCH for a resumable upload touches only the temporary files, and records only the version (bucket, name, hash, size, servers), of a token that a POST of the same user was answered with; versions are recorded only in buckets the user may write to, and the path in the answer to the POST leads back to its token.", "quantifier": "all sequences of requests of all users, all tokens they could send, all answers of the other servers, every lawful token encoding", "why_tests_cant": "Tests send back the tokens they were given; a token made up by a client is one of infinitely many inputs.", "anchors": ["src/apiserver/internal/controller/http/big_api.go: Post, Patch, finishUpload", "src/apiserver/internal/usecase/service/rs_resumable_stream.go", "src/apiserver/internal/usecase/service/rs_put_stream.go: newExistedRSPutStream, Commit", "src/apiserver/internal/usecase/service/rs_encoder.go", "src/apiserver/internal/entity/dto.go: BigPutReq.Bind"]}
{"id": "C93", "title": "A server is in etcd while it serves and gone after it ended", "statement": "While the lease of a server exists and its requests reach etcd, its registration and its statistics are in etcd and are refreshed every minute; after it stopped nothing of it is left, and after it died nothing is left once its leases have run out.", "quantifier": "all interleavings of the lifecycle loop, the notifications of all leases, the statistics ticker and the main goroutine; all late and lost requests; all losses of leases, stops and kills", "why_tests_cant": "The failures need a lease that comes late, two leases in a short time, or a tick in the moment of the stop.", "anchors": ["src/common/registry/etcd_lifecycle.go: DeadLoop, notifying, Close", "src/common/registry/etcd_registry.go: Register, Unregister", "src/common/system/syncer.go", "src/common/graceful/graceful.go: ListenAndServe", "src/apiserver/internal/app/app.go, src/metaserver/internal/app/app.go, src/objectserver/internal/app/app.go: Run"]}
{"id": "C94", "title": "A metadata server comes back with the configuration it had", "statement": "After every change of the slots, the group or the nodes of a metadata server, once the writes it started are through, the configuration file holds the configuration the server runs with; a server that is stopped then and started again, on whatever address, has the same id, directory, group, nodes and slots. Its id and directory never change while it runs, no two goroutines write the file at once, and the file is whole whenever none writes.", "quantifier": "all installed configuration files and environments, all sequences of changes, all interleavings of the writing goroutines, all stops and starts, all contents of the fields", "why_tests_cant": "The goroutines that write are not waited for; what is lost shows only after a restart at the wrong moment, on another address, or with a cache size nobody tried.", "anchors": ["src/metaserver/config/config.go: ReadConfigFrom, initialize, Persist", "src/common/datasize/datasize.go: String, Parse", "src/metaserver/internal/usecase/logic/hashslot_logic.go: SaveToEtcd", "src/metaserver/internal/usecase/logic/raft_cluster_logic.go: UpdateConfiguration", "src/metaserver/internal/controller/grpc/raft_cmd_server.go: RemoveFollower", "src/common/registry/config.go: SID"]}
{"id": "C95", "title": "A server that is told to stop finishes the requests it has accepted", "statement": "A server that receives a stop signal accepts no more requests, answers every request it has accepted while its databases and connections are still open, and only then closes these and ends; if requests are not answered within 15 seconds it goes on without them, and never hangs.", "quantifier": "all numbers of HTTP requests and gRPC calls under way at the signal or coming after it, all orders in which the goroutines of the shutdown, the requests and the deadline proceed, all three kinds of servers", "why_tests_cant": "Which request is cut off depends on the scheduling of goroutines nobody waits for at the moment of the stop; a test that stops an idle server always passes.", "anchors": ["src/common/graceful/graceful.go: ListenAndServe", "src/objectserver/internal/controller/http/router.go: Server.Shutdown", "src/metaserver/internal/controller/http/http.go: Server.Shutdown", "src/apiserver/internal/controller/http/server.go: NewHttpServer", "src/objectserver/internal/controller/grpc/grpc.go: Shutdown"]}
{"id": "C96", "title": "One connection per server", "statement": "However many requests ask for connections at the same time, at most one connection is made to every address; all calls for an address get this one; a failed attempt is forgotten and tried again by the next call; the lock is always released; and asking never harms the process.", "quantifier": "all numbers of goroutines, all addresses, all interleavings of the accesses to the map and the lock, all outcomes of dialling", "why_tests_cant": "The map is read without its lock: the runtime ends the process only when the read falls into the few instructions of a write, at the first contact with some server.", "anchors": ["src/apiserver/internal/usecase/grpcapi/base.go: getConn", "src/adminserver/internal/usecase/logic/conn.go: getConn"]}
{"id": "C97", "title": "New objects go to the server with the least load", "statement": "What a data server reports of its drives is the average over all of them, for every counter; and of the servers that can be reached, the strategy io-first chooses one whose reported weighted time is least, and the strategy space-first one that counts the fewest bytes. The space of a drive adds up.", "quantifier": "all numbers of drives and all values of their counters, all orders of the drives, all sets of servers reachable or not, all earlier tables of loads, fresh tables and old ones", "why_tests_cant": "The counters of a test machine are small and its drives few; the conversion to 32 bits goes wrong only after weeks of work, and then on the busiest server first.", "anchors": ["src/common/system/disk/stat.go: GetAverageIOStats", "src/objectserver/internal/controller/http/stat/stat.go: Info", "src/apiserver/internal/usecase/webapi/object_server.go: StatObject", "src/apiserver/internal/usecase/componet/selector/weighted_io_first.go: fetchIoInfo, Pop", "src/apiserver/internal/usecase/componet/selector/space_first_selector.go: fetchSpaceInfo", "src/common/system/disk/stat_linux.go: GetInfo"]}
{"id": "C98", "title": "The pages that show a configuration show no credentials", "statement": "The page of the configuration of a server, which everybody can ask for, is the same whatever the credentials of the server are; it shows everything else that the configuration file can set; showing it does not change the configuration the server works with; and the administration server shows the page of the server whose id is asked for.", "quantifier": "all configurations of the three kinds of servers, all values of all fields, all sets of registered servers and ids", "why_tests_cant": "A leak shows only for the one field that a mask was forgotten for, or for configurations with values that no test configuration has; that the page is independent of a secret is not a statement about any single run.", "anchors": ["src/apiserver/internal/controller/http/internal_api.go: Config", "src/objectserver/internal/controller/grpc/config_service.go: GetConfig", "src/metaserver/internal/controller/grpc/config_service.go: GetConfig", "src/adminserver/internal/controller/http/server_state.go: ServerConfig"]}
{"id": "C99", "title": "A read of metadata sees the writes acknowledged before it", "statement": "After a write of metadata has been acknowledged, every read by an API server answers with it; whichever member of the group is asked, answers correspond to some number of writes in their order, and never go back; a read is possible whenever the master of the slot is known, at the master or a member it names.", "quantifier": "all histories of writes, of members applying them and of elections, all questions to a store, all sets of known servers, all answers about peers, all random choices", "why_tests_cant": "A follower in a test applies a write within a millisecond; the read that comes in between is rare, and answers not found for an object that was just stored.", "anchors": ["src/apiserver/internal/usecase/logic/discovery_logic.go: SelectMetaServerGRPC, SelectMetaServerHttp", "src/metaserver/internal/usecase/logic/peers_logic.go: GetPeers", "src/metaserver/internal/usecase/raftimpl/raft_apply.go: ApplyRaft", "src/apiserver/internal/usecase/repo/meta_repo.go: FindByName"]}
{"id": "C100", "title": "Measurements reach the store while the server runs and when it stops", "statement": "A record in the memory of the performance collector is in its store by the first look of the background loop that comes an interval later, if the store works; none is dropped with flush-when-reached, and no more than the newcomers push out without; after the collector has been closed every record measured is in the store and the background loop ends.", "quantifier": "all configurations, all histories of requests, of their goroutines, of looks of the loop, of failures of the store and of the clock", "why_tests_cant": "A test puts records in and closes the collector in one goroutine; the record whose goroutine has not run when the server stops, the close before the loop began and the retry that waits an interval need schedules a test does not produce.", "anchors": ["src/common/performance/collector.go: NewCollector, PutAsync, Put, Flush, Close, startAutoFlush", "src/apiserver/internal/usecase/pool/instance.go: initPerform, Close"]}
{"id": "C101", "title": "A request that panics is answered with an error and harms no other", "statement": "Whatever the handler of an HTTP request or of an RPC does, the server stays up, and the client gets the answer of the handler, or an internal error if the handler panics; HTTP/2 requests of type application/grpc are RPCs, all others HTTP requests.", "quantifier": "all handlers, all states, all sequences of requests", "why_tests_cant": "A test of the interceptor with a handler that panics takes the whole test process down, so such a test is not written; in production it takes a request that nobody thought of.", "anchors": ["src/common/util/h2c_handler.go: ServeHTTP, UnaryServerRecoveryInterceptor, StreamServerRecoveryInterceptor, UnaryLoggerInterceptor", "src/common/graceful/recover.go: Recover, PrintStacks"]}
{"id": "C102", "title": "Administrative commands reach the server they name and their outcome is reported", "statement": "A command given to the administration server (a data server joins or leaves the cluster, slots are migrated, a metadata server joins or leaves a group) is sent to the registered address of the server it names, to that one only and once; it is answered with 200 exactly if that server has carried it out. The pages of slots and peers show what the servers have registered.", "quantifier": "all sets of registered servers, all answers of the servers, all requests", "why_tests_cant": "A test uses one cluster where commands succeed; refusals, unreachable servers, IPv6 addresses and entries of several groups need servers that fail on purpose.", "anchors": ["src/adminserver/internal/controller/http/metadata.go: Migration, SlotsDetail, JoinLeader, LeaveCluster, Peers", "src/adminserver/internal/controller/http/object.go: Join, Leave", "src/adminserver/internal/usecase/logic/metadata_logic.go: StartMigration, GetSlotsDetail, LeaveRaftCluster, JoinRaftCluster, GetPeers", "src/adminserver/internal/usecase/logic/object_logic.go: JoinCluster, LeaveCluster", "src/adminserver/internal/usecase/logic/conn.go: ResolveErr"]}
{"id": "C103", "title": "The REST interface of a metadata server does what its requests say", "statement": "A request to the REST interface of a metadata server that is not well formed (a body that cannot be read, missing fields, numbers that are no numbers) is refused and changes nothing. A well formed request that passes the checks of the middlewares carries out the operation it stands for, once, and is answered with its status of success or with the status of the error; whatever is not answered with success has changed nothing. What was written is read afterwards by GET.", "quantifier": "all stores, all requests and queries, on a single server and on the leader of a group", "why_tests_cant": "A test sends a few valid requests; that no malformed request changes anything, in no state, and that every refusal leaves the store as it was, concerns all of them.", "anchors": ["src/metaserver/internal/controller/http/metadata_rest.go: all handlers", "src/metaserver/internal/controller/http/version_rest.go: all handlers", "src/metaserver/internal/controller/http/bucket_rest.go: all handlers", "src/metaserver/internal/controller/http/middleware.go", "src/metaserver/internal/usecase/service/metadata_service.go"]}
{"id": "C104", "title": "Locating as a system names servers that have the shards", "statement": "However many uploads locate their objects at the same time, and whatever the data servers gain and lose meanwhile: a search that succeeds names for each shard a data server of the own cluster that had the file during the search, answers for one search never enter another, a search whose shards are all on servers that are watching succeeds, and no key is left behind in etcd.", "quantifier": "all executions: any number of concurrent searches and data servers, any interleaving of questions, deliveries, answers, failures, watches that end and begin again, and files that come and go", "why_tests_cant": "Whether an answer reaches the right search depends on the interleaving of several processes; a test sees one of them.", "anchors": ["src/apiserver/internal/usecase/service/object_service.go: LocateObject, getLocateResp", "src/objectserver/internal/usecase/service/locate.go: NewLocator, StartLocate, handlerLocate", "src/common/cst/etcd_prefix.go: LocationSubKey"]}
{"id": "C105", "title": "Objects survive lost, moved and repaired files", "statement": "In every execution in which files disappear from data servers, are moved to others and are written again by reads that find them missing, every version still has its number, and GET returns the content of its upload while enough of its shards or copies are left; what is delivered is never anything else.", "quantifier": "all executions: any number of uploads, any interleaving of their steps with losses, moves, changes of recorded locations, reads that repair, and requests to the metadata server; all read patterns and failing servers", "why_tests_cant": "The effects of a loss show when a later upload finds what a repair left behind, or when a second loss follows; a test would have to try the interleavings.", "anchors": ["src/apiserver/internal/usecase/service/stream/rs_get_stream.go: NewRSGetStream, Close", "src/apiserver/internal/usecase/service/stream/rs_decoder.go: Read, Close", "src/apiserver/internal/usecase/service/stream/copy_get_stream.go: NewCopyGetStream", "src/apiserver/internal/usecase/service/stream/copy_fix_stream.go: Close", "src/apiserver/internal/usecase/service/object_service.go: GetObject", "src/metaserver/internal/usecase/service/metadata_service.go: UpdateLocates", "src/objectserver/internal/usecase/service/migration_service.go: SendingTo, FinishReceive"]}
{"id": "C106", "title": "Typed commands do what they say, or nothing", "statement": "A command typed to a server program that is written properly sends exactly the request it describes, to the server on the given port of this machine, or starts the server with the named configuration; anything else sends nothing, and nothing typed makes the program panic. Bootstrapping or adding members with a member that is not written properly changes nothing.", "quantifier": "every list of arguments, every machine name, every membership", "why_tests_cant": "The commands need running servers, and mistyped commands are not tried.", "anchors": ["src/common/cmd/cmd.go: Run", "src/metaserver/cmd/raft/raft.go: init, addVoter, bootstrap, demoteVoter", "src/metaserver/cmd/hashslot/hashslot.go: init, startMigration, getSlots", "src/objectserver/cmd/rpc/rpc.go: init, JoinCluster, LeaveCluster", "src/metaserver/internal/controller/grpc/raft_cmd_server.go: Bootstrap, AddVoter", "src/common/util/ip_tool.go: GetHost, GetHostPort"]}
{"id": "C107", "title": "A restarted server is the same server", "statement": "A server that is started again with its configuration has the id it had, finds its files, is registered at an address others reach, and is in the group it was in; servers started with one configuration file found one group. The address taken of a name is the best it has, and a process never changes its mind about its own address.", "quantifier": "every configuration, every sequence of starts, stops and writes, every machine and every list of members", "why_tests_cant": "Tests run on one machine whose address does not change.", "anchors": ["src/common/util/ip_tool.go: ParseIP, GetHostFromAddr, DetectServerIP, IsPublicIP", "src/common/registry/config.go: RegisterAddr, SID", "src/objectserver/config/config.go: initialize", "src/metaserver/config/config.go: initialize", "src/metaserver/internal/usecase/raftimpl/raft_impl.go: NewRaft"]}
{"id": "C108", "title": "The web console gives out its files and brings every page back", "statement": "A request below /api is never answered by a file; an embedded file is answered with its content and nothing else is given out; the root is the start page; a page that is not a file is answered by one redirection to the start page, where the client finds the page it wanted and its parameters; config.js holds the configured port.", "quantifier": "every set of embedded files, every set of routes, every path and query", "why_tests_cant": "Tests request a few paths of one build; names with special characters, a build without the console and requests for a part of a file are left out.", "anchors": ["src/adminserver/resource/embed.go: Open, Exists", "src/adminserver/resource/configjs.go: newConfigJS, Read", "src/adminserver/internal/controller/http_server.go: NewHttpServer"]}
{"id": "C109", "title": "The database file survives replacements, stops and crashes", "statement": "However a metadata server ended, it can be started, and the snapshot and the log kept by raft bring its state back whatever is left in the files. While it runs, its database is never removed or overwritten, and only transactions and completed replacements change what is seen. After an orderly stop the next start shows what was seen before. Without raft the file always holds what the transactions made.", "quantifier": "every sequence of starts, transactions, complete and failed replacements, removals of old files, stops and crashes; every content", "why_tests_cant": "Tests do not crash the process between the writing, the swapping and the removal of files, nor replace the database many times in one run.", "anchors": ["src/metaserver/internal/usecase/db/storage.go: Open, Stop, Replace", "src/metaserver/internal/usecase/repo/metadata_repo.go: Restore", "src/metaserver/internal/usecase/pool/pool.go: initStorage, Close"]}
{"id": "C110", "title": "Bodies of HTTP answers are given back", "statement": "Every function that sends an HTTP request closes or reads to its end the body of every answer, whatever its status; a stream gives its bodies back when it is closed; so the number of open bodies does not grow with the number of requests.", "quantifier": "every function of the clients of API, data and administration server; every answer, readable or not; every interleaving of operations on any number of shard readers; every number of requests", "why_tests_cant": "Open bodies do not change any result; they show only as exhausted connections after many requests, failed answers or broken downloads.", "anchors": ["src/apiserver/internal/usecase/webapi/object_server.go", "src/apiserver/internal/usecase/service/get_stream.go: request, Read, Seek, Close", "src/apiserver/internal/usecase/service/rs_get_stream.go: Close", "src/apiserver/internal/usecase/componet/auth/callback_validator.go: Verify", "src/objectserver/internal/usecase/service/migration_service.go: getPeersCapacity"]}
{"id": "C111", "title": "A failed upload or download leaves nothing behind", "statement": "If storing an object fails, no data server keeps a temporary or stored file of it; a file is stored only after all content was written, verified and its server agreed; after a success every server has its shard. If a download cannot be opened or a group of tasks reports an error, every goroutine ends and every upload begun for a repair is taken back.", "quantifier": "every number of data servers, every combination of outcomes of their answers, every point of failure, every interleaving of the goroutines", "why_tests_cant": "The results are the same whether something remains or not; the remains need failures of single servers at certain moments, and accumulate slowly.", "anchors": ["src/apiserver/internal/usecase/service/object_service.go: StoreObject, streamToDataServer", "src/apiserver/internal/usecase/service/rs_put_stream.go", "src/apiserver/internal/usecase/service/copy_put_stream.go", "src/apiserver/internal/usecase/service/rs_get_stream.go: provideGetStream, NewRSGetStream", "src/common/util/done_group.go: WaitDone, WaitUntilError"]}
{"id": "C112", "title": "Clearing performance records removes exactly those asked for", "statement": "Clear(kind, action) of a store of performance records removes exactly the records that meet both conditions (an empty condition admits every record); afterwards every query answers with what was put and not cleared since, and the store stays usable.", "quantifier": "every sequence of puts and clears, all names of kinds and actions, every query, every behaviour of the database's cursor after a deletion", "why_tests_cant": "Samples use names none of which starts another and one or two records; which records go wrong depends on the names stored together and on the library.", "anchors": ["src/common/performance/local_store.go: Clear, delete", "src/common/performance/etcd_store.go: Clear", "src/common/performance/store.go: Store"]}
{"id": "C113", "title": "Storing a shard is all or nothing", "statement": "Whatever requests for one shard a data server handles at the same time: who reads the shard gets the whole shard; once a request to store it was answered with success and nobody is writing, the shard is there unless it was deleted; and if every request to store it failed there is no file of its name.", "quantifier": "any number of PUT requests, commits, deletions and reads of one shard on any drives, every interleaving of their operations on files, every length of the shard, bodies that break off at any place", "why_tests_cant": "Two requests overlap by chance, and the moment at which a body breaks off cannot be chosen; the effects show in later requests.", "anchors": ["src/objectserver/internal/controller/http/objects/objects_rest.go: Put, Get, Delete", "src/objectserver/internal/usecase/service/objects_service.go: Put, Get, GetFile, Delete, AppendFileAligned, CommitFile", "src/common/system/disk/aligend_reader.go: AlignedReader.Read", "src/apiserver/internal/usecase/service/copy_fix_stream.go: startFix"]}
{"id": "C114", "title": "A kernel that insists on alignment refuses no read or write of a shard", "statement": "Shard files are opened for direct I/O. On a device whose blocks are 512 or 4096 bytes long (any divisor of 4096) the kernel refuses reads and writes whose position, length or buffer is not a multiple of the block size. Nevertheless every request that appends to a shard file succeeds, and every part of a stored shard can be read, with the bytes that were stored.", "quantifier": "every block size that divides 4096, every sequence of appended bodies (also ones that fail), every file, offset and size, every place of the buffers in memory", "why_tests_cant": "Whether the kernel refuses depends on the file system and the device below it: on tmpfs, overlay or btrfs, where tests run, unaligned reads succeed.", "anchors": ["src/objectserver/internal/usecase/service/objects_service.go: GetFile, AppendFileAligned", "src/common/system/disk/aligend_reader.go: AlignedReader.Read, AlignedLimitedReader.Read", "src/common/system/disk/direct_io_unix.go: OpenFileDirectIO, DisableDirectIO, AlignedBlock", "src/apiserver/config/config.go: ShardSize"]}
{"id": "C115", "title": "The content cache of a data server neither outlives nor misrepresents the shard", "statement": "When nothing is going on at a data server, a read of a shard delivers the whole shard or answers that there is none; and if no file of the shard is stored, it answers that there is none. Shards that are larger than the largest item of the cache are always read from the file.", "quantifier": "every interleaving of requests to store, read and delete one shard with the goroutines that fill the cache after the requests were answered, and with evictions; every content, buffer and limit of the cache", "why_tests_cant": "The goroutines normally run within microseconds of the answer; only a deletion or a read at the right moment shows the difference, and then in all later reads.", "anchors": ["src/objectserver/internal/controller/http/objects/objects_cache.go: GetFromCache", "src/objectserver/internal/controller/http/objects/objects_rest.go: Put, Get, Delete", "src/objectserver/internal/usecase/service/objects_service.go: Put, Get, Delete"]}
{"id": "C116", "title": "The lists of the web console show the selected page, and every page can be selected", "statement": "When all requests of a list of the web console are answered, the list shows the selected page of what is stored for the name that is typed, and every page of it can be chosen with the controls of the pager. The number of the selected page is always among the numbers on display.", "quantifier": "every sequence of uses of the controls, searches, changes of the page size and answers in any order; every content of the server", "why_tests_cant": "The pager is right as long as the list does not get shorter; tests start from the first page with few rows, and answers arrive in the order of the requests.", "anchors": ["src/adminserver/ui/src/components/Pagination.vue: setCurrentPage, switchPage, changeStart, totalPage", "src/adminserver/ui/src/pages/metadata.vue: searchData, queryMetadata, queryVersion", "src/adminserver/ui/src/pages/bucket.vue: queryBuckets", "src/adminserver/internal/usecase/logic/metadata_logic.go: MetadataPaging"]}
{"id": "C117", "title": "Who types the user name and password of the cluster is signed in at the web console", "statement": "If the API servers ask for a user name and password, typing both into the dialog of the web console closes it, other credentials leave it open, no refused credential is kept or sent again, and after signing out none is sent.", "quantifier": "every credential and everything that can be typed, every state of the console, every sequence of signing in and out, reloading and requests; from the dialog through the administration server to the decision of the API server", "why_tests_cant": "With the same word as user name and password, which is what a test account often has, signing in works.", "anchors": ["src/adminserver/ui/src/components/LoginDialog.vue: doLogin", "src/adminserver/ui/src/store/index.ts: setAuth, clearAuth", "src/adminserver/ui/src/api/base.js: request interceptor", "src/adminserver/ui/src/App.vue: loginOut"]}
{"id": "C118", "title": "The administration server does what the user chose in the web console", "statement": "Removing a bucket, downloading a version, adding or removing a metadata server of a data server, or reading a configuration in the web console reaches the administration server as exactly that request: the same operation with the same names and version.", "quantifier": "every name that is not empty, every version, every set of characters a browser escapes; from the address the console builds through the browser's rules for addresses to the route and the parameters read by the administration server, and on to the API server", "why_tests_cant": "Names in tests are made of letters and digits, for which addresses need no escaping.", "anchors": ["src/adminserver/ui/src/api/objects.ts: download, join, leave", "src/adminserver/ui/src/api/metadata.ts: removeBucket, getPeers", "src/adminserver/ui/src/api/server-stat.ts: getConfig", "src/adminserver/internal/controller/http/object.go: Download", "src/adminserver/internal/controller/http/metadata.go: DeleteBucket, GetPeers"]}
{"id": "C119", "title": "The page of the metadata servers shows the slots as they are and migrates what was chosen", "statement": "On the page of the metadata servers of the web console the form for migrations lets a text pass exactly if it is a list of ranges of slots; the bars are the ranges that the servers route with; each bar stands where its first slot is; and a click on a bar chooses the server that owns the range as the source.", "quantifier": "every text typed into the form, every set of records of groups that agree about the owners, every order of the records and every result of sorting", "why_tests_cant": "Tests use well-formed texts, slots without gaps and servers without raft.", "anchors": ["src/adminserver/ui/src/pages/server/meta.vue: startMigrate, getSlotRanges, openMigrateDia", "src/adminserver/ui/src/components/SlotsCard.vue", "src/common/hashslot/hash_slot.go: WrapSlots, formatInt", "src/adminserver/internal/usecase/logic/metadata_logic.go: StartMigration"]}
{"id": "C120", "title": "The charts and messages of the web console show what the servers report", "statement": "A point of a usage chart is the mean usage of the servers at that time; the list of alarms on the first page holds the messages of the members of etcd that are selected; the numbers of a capacity card are the sums over the servers, and its pie shows the same.", "quantifier": "every number of servers, every timelines of every length, every order of them, every clock; every sequence of answers and clicks; every sequence of answers about the servers", "why_tests_cant": "The charts are drawn by a library and nobody computes by hand what they should show; with one or two servers they are right.", "anchors": ["src/adminserver/ui/src/components/UsageLine.vue: fetchTl", "src/adminserver/ui/src/pages/index.vue: filterLogs", "src/adminserver/ui/src/components/CapCard.vue", "src/adminserver/ui/src/pages/server/data.vue: updateInfo"]}
{"id": "C121", "title": "The dialogs of the page of buckets do what they show", "statement": "On the page of buckets of the web console a confirmed deletion removes the bucket of the row that was chosen; every other request carries what its dialog showed; the table shows what the server answered; the dialog for a new bucket opens empty; and a dialog is closed only by the user or by the success of its own request.", "quantifier": "every sequence of clicks, texts typed, answers (in any order, successful or not) and lists of rows that arrive", "why_tests_cant": "The effects depend on objects that a dialog shares with the table and on answers that arrive while another dialog is open.", "anchors": ["src/adminserver/ui/src/pages/bucket.vue: addBucket, updateBucket, removeBucket, isDeleting, isOperating"]}
{"id": "C122", "title": "Requests that use the drive table of a data server at the same time do not disturb one another", "statement": "While any number of requests choose drives, look for files and list the drives, and the table is renewed by updates: a search finds a file that is on an allowed drive and names only drives that have it; a chosen drive has the most free space of the table; a listing has every drive once; and no drive disappears from the table between two updates.", "quantifier": "every number of goroutines, every interleaving of their reads and writes of the table, every sequence of updates, every table and every placement of files", "why_tests_cant": "The outcome depends on single reads and writes of different requests between each other; a test sees one of very many interleavings.", "anchors": ["src/objectserver/internal/usecase/component/driver_balancer.go: Select", "src/objectserver/internal/usecase/component/driver_manager.go: Update, FindMountPath, GetAllMountPoint, SelectMountPointFallback"]}
{"id": "C123", "title": "A map that several goroutines use is not written while another goroutine uses it", "statement": "Whatever requests and background goroutines call on the service lists, on the selectors of the API server, on the figures of the servers in the admin server and on the set of errors of a repair: no goroutine writes one of their maps while another goroutine reads or writes it. (The Go runtime ends the process when it sees this; recover does not help.)", "quantifier": "every number of goroutines, every list of calls, every interleaving of the beginnings and ends of map accesses and of the lock operations", "why_tests_cant": "Whether two accesses overlap depends on the scheduler; the race detector reports only what happened in the run.", "anchors": ["src/common/registry/service_list.go: combine, add, remove, list, copy", "src/common/registry/etcd_discovery.go: NewEtcdDiscovery, initService, addService, removeService, GetServices", "src/apiserver/internal/usecase/componet/selector/space_first_selector.go: fetchSpaceInfo, Pop, Select", "src/apiserver/internal/usecase/componet/selector/weighted_io_first.go: fetchIoInfo, Pop", "src/adminserver/internal/usecase/db/server_stat_db.go: init, addStat, watching, GetTimeline", "src/common/collection/set/map_set.go: WriteSyncSet"]}
{"id": "C124", "title": "Errors are printed at every log level and mailed exactly once", "statement": "Whatever level is configured, entries of level error, fatal and panic are printed; a higher level prints at least what a lower one prints; and with a complete mail configuration every printed error, fatal message and panic is mailed exactly once, as text, and nothing else is.", "quantifier": "every configured level string, every mail configuration, every sequence of log entries, deliveries of mails in any order and ends of the process", "why_tests_cant": "The mail is sent by a goroutine that races with the end of the process; a test with a mail server that answers at once always sees it.", "anchors": ["src/common/logs/logs.go: ToLogLevel, WithConfig, EnableNotify, IsDebug", "src/common/logs/error_hook.go: Levels, Fire", "src/common/logs/config.go: IsValid", "src/metaserver/internal/usecase/db/storage.go: View, Update, Batch"]}
{"id": "C125", "title": "What was read from the metadata database stays what it was", "statement": "A request that read keys or values from the database goes on with exactly what it read, whatever is written afterwards: the search by hash answers with the versions that exist and removes exactly the entries of the others, the migration of buckets sends and removes exactly the buckets of the moved slots, and a bucket that was read is answered as it was.", "quantifier": "every table, every choice of pages by the database, every set of stale index entries, every interleaving of sending, removing and other write transactions", "why_tests_cant": "The slices point into memory that is overwritten only when its page is used again, that is from the second later write transaction on, and what they show then depends on the sizes of the entries; tests with one stale entry or one bucket never see it.", "anchors": ["src/metaserver/internal/usecase/service/metadata_service.go: FindByHash", "src/metaserver/internal/usecase/service/hashslot_service.go: migrateBuckets", "src/metaserver/internal/usecase/logic/hash_index_logic.go: GetIndex", "src/metaserver/internal/usecase/logic/bucket_logic.go: GetBytes, Foreach"]}
{"id": "C126", "title": "A list without error shows what every server has", "statement": "When the administration server answers a page of objects or buckets, the numbers of the overview or the states of the servers without an error, every server that had to be asked has answered and its part is in the answer; when a server fails, the answer is the error of a server that failed; when no server fails, there is no error.", "quantifier": "every number of servers, every set of failures, every order in which answers arrive, tasks end and the handler comes to wait", "why_tests_cant": "Whether an error is lost depends on a random choice of select that exists only when all servers answer before the handler waits; a test with a slow failing server always sees the error.", "anchors": ["src/adminserver/internal/usecase/logic/metadata_logic.go: MetadataPaging, BucketPaging, TotalBuckets, TotalObjects", "src/adminserver/internal/controller/http/server_state.go: Overview, Stat", "src/adminserver/internal/usecase/logic/server_monitor.go: EtcdStatus", "src/common/util/done_group.go: WaitUntilError"]}
{"id": "C127", "title": "Reads are spread over the members of a group", "statement": "When enough reads of metadata come in, each member of the group that is known answers some of them; with the strategy \"random\", uploads that follow each other do not all use the same data servers.", "quantifier": "every generator of random numbers determined by its seed, every list of servers, every number of requests and seconds, every interleaving of requests", "why_tests_cant": "The choice is the same for the rest of a second only; tests that look at single requests, or run for long, see different servers, and under load it depends on how the calls of requests overlap.", "anchors": ["src/apiserver/internal/usecase/componet/selector/random_selector.go: Pop, Select", "src/apiserver/internal/usecase/logic/discovery_logic.go: SelectMetaServerGRPC, SelectMetaServerHttp, SelectDataServer", "src/metaserver/internal/usecase/logic/peers_logic.go: GetPeers"]}
{"id": "C128", "title": "Entries of different kinds in the cache of a data server are kept apart", "statement": "Contents of shards, records of uploads and marks of existence, which share one cache, never stand for each other: every request is answered, and every file left, as if each kind had its own table; requests for uploads touch only the file of the upload.", "quantifier": "every sequence of requests with any names and identifiers, every encoding of records, every moment at which entries vanish from the cache", "why_tests_cant": "Names that look like identifiers do not occur in tests; the guarantee is about all names that can be part of a URL, and about sequences in which one kind is written and another one read.", "anchors": ["src/objectserver/internal/controller/http/objects/objects_rest.go: Put, Get, Delete", "src/objectserver/internal/controller/http/objects/objects_cache.go: GetFromCache", "src/objectserver/internal/controller/http/temp/temp_rest.go: Post, Patch, Put, Get, Delete", "src/objectserver/internal/usecase/service/temp_service.go: SetTempInfo, GetTempInfo, StartTempRemovalBackground", "src/objectserver/internal/usecase/service/objects_service.go: Exist, MarkExist"]}
{"id": "C129", "title": "A data server touches only the files of its storage directories", "statement": "Whatever is asked of a data server, it reads, creates, changes and removes only files directly in its storage directories: other files keep their contents, and no answer depends on them.", "quantifier": "every sequence of requests with any names, every file system, every set of drives, every storage path", "why_tests_cant": "Absence of influence is a statement about two executions over all file systems and all names; tests use names of shards.", "anchors": ["src/objectserver/internal/usecase/service/objects_service.go: FindRealStoragePath, Exist, Put, Get, Delete", "src/objectserver/internal/usecase/service/driver_manager.go: FindMountPath", "src/objectserver/internal/usecase/service/migration_service.go: OpenFile", "src/objectserver/internal/controller/http/objects/objects_rest.go: Put, Get, Head, Delete", "src/objectserver/internal/controller/grpc/migration_server.go: ReceiveData"]}
{"id": "C130", "title": "The console downloads the version whose button is pressed", "statement": "Pressing `Download` in a row of the list of versions asks for that version of the object whose versions are shown.", "quantifier": "every sequence of clicks, page changes, closings, answers in any order and failures", "why_tests_cant": "Depends on the order in which answers arrive; a test clicks one button and waits for its answer.", "anchors": ["src/adminserver/ui/src/pages/metadata.vue: queryVersion, versionColumns, watch", "src/adminserver/ui/src/components/ModalTemplate.vue"]}
{"id": "C131", "title": "The database file and the log, as bytes, answer like records", "statement": "A metadata server that keeps its records as msgpack bytes in the database file, and reads its commands as bytes from the raft log, gives the same answers as a server that keeps the records themselves: nothing it wrote is refused when it is read, no field is lost, and what one entry leaves in the variable that entries are decoded into never shows in another.", "quantifier": "every sequence of fewer than 2^63 operations or log entries whose fields fit their Go types, in every grouping of the log, for every way the transactions leave the shared variable", "why_tests_cant": "Depends on every combination of field values and on values left over from earlier entries of the same group; tests write and read a few records.", "anchors": ["src/metaserver/internal/usecase/logic/metadata_logic.go", "src/metaserver/internal/usecase/logic/bucket_logic.go", "src/metaserver/internal/usecase/repo/metadata_repo.go: ListVersions, ListMetadata", "src/metaserver/internal/usecase/service/metadata_service.go: FindByHash, UpdateLocates", "src/metaserver/internal/usecase/raftimpl/fsm_impl.go: Apply, ApplyBatch", "src/common/util/util.go: EncodeMsgp, DecodeMsgp"]}
{"id": "C132", "title": "A shard that was acknowledged survives a loss of power", "statement": "When a data server has answered that a shard is stored, the shard is read with its content until it is deleted, also after the process ended, after the power was lost, and after uploading the content again.", "quantifier": "every sequence of uploads, commits, deletions, questions whether a shard is stored, ends of the process, losses of power, and write-backs of the kernel in any order and of any part", "why_tests_cant": "A test cannot choose what the kernel has written back when the power goes.", "anchors": ["src/objectserver/internal/usecase/service/objects_service.go: AppendFileAligned, CommitFile, Put, Exist, Delete", "src/objectserver/internal/controller/http/temp/temp_rest.go", "src/common/system/disk/direct_io_unix.go"]}
{"id": "C133", "title": "A replica that cannot write its database does not go on without the entry", "statement": "Replicas of a group of metadata servers that have applied the same log have the same metadata, and a change that was answered with an error is on none of them, also when a replica could not write its database for some time.", "quantifier": "every log and every set of entries that could not be written on each replica", "why_tests_cant": "Needs failures of the drive at particular entries of the log on one replica, and a comparison with the others.", "anchors": ["src/metaserver/internal/usecase/raftimpl/fsm_impl.go: ApplyBatch, FSMResult", "src/metaserver/internal/usecase/raftimpl/raft_apply.go"]}
{"id": "C134", "title": "The space of contents that no version refers to is given back", "statement": "When no upload is under way, the data servers hold only shards and copies that a version refers to: contents whose last version was removed are deleted.", "quantifier": "every execution of uploads, removals of versions and objects, and retention of versions by buckets", "why_tests_cant": "Whether a file is still needed depends on all versions of all objects, because equal contents are stored once; a test sees the files of a few objects and not those that will never be deleted.", "anchors": ["src/apiserver/internal/controller/http/objects_api.go: Register", "src/metaserver/internal/usecase/service/metadata_service.go: RemoveVersion, RemoveMetadata, AddVersion", "src/objectserver/internal/controller/http/router.go", "src/apiserver/internal/usecase/webapi/object_server.go"]}
{"id": "C135", "title": "A resumable upload is recorded if and only if its content has the announced digest", "statement": "With checksums configured, a resumable upload whose bytes have all arrived ends with a version if the content has the digest the client announced, and is refused otherwise.", "quantifier": "every content, digest, layout of shards, state of the data servers and answers of the metadata servers", "why_tests_cant": "A test with checksums would need the real digests of three stores; a test without them passes for every content. The claim is about all contents and digests.", "anchors": ["src/apiserver/internal/controller/http/big_api.go: finishUpload, Patch", "src/apiserver/internal/usecase/service/rs_get_stream.go: NewRSTempStream", "src/apiserver/internal/usecase/service/temp_stream.go", "src/common/util/crypto/crypto.go: SHA256IO", "src/objectserver/internal/controller/http/temp/temp_rest.go: Get"]}
{"id": "C136", "title": "An erasure coded object survives losses of power", "statement": "After any data servers lost power, reading an erasure coded object delivers nothing but a beginning of it, and all of it if at least as many servers as there are data shards have kept their whole shards.", "quantifier": "every erasure code, layout of shards, content, way of writing it, sequence of uploads, losses of power and write-backs of the kernels of any part at any time, servers that fail while reading, sizes of read buffers", "why_tests_cant": "A test cannot choose what the kernels have written back when the power goes, and the outcome depends on where in a block each file was cut.", "anchors": ["src/apiserver/internal/usecase/service/rs_decoder.go: getData, Read", "src/objectserver/internal/usecase/service/objects_service.go: AppendFileAligned, CommitFile", "src/objectserver/internal/controller/http/temp/temp_rest.go: Post, Patch, Put"]}
{"id": "C137", "title": "A replicated object survives losses of power", "statement": "After any data servers lost power, reading a replicated object delivers the object while one whole copy is left at a recorded server that answers, and reading never makes the object worse.", "quantifier": "every content, number of copies, state of the servers, sequence of uploads, losses of power and write-backs of the kernels of any part at any time, tolerance of losses and choice of replacements", "why_tests_cant": "A test cannot choose what the kernels have written back when the power goes, and the damage shows in reads after the one that repairs.", "anchors": ["src/apiserver/internal/usecase/service/copy_get_stream.go: NewCopyGetStream, Read, Close", "src/apiserver/internal/usecase/service/copy_fix_stream.go: startFix", "src/apiserver/internal/usecase/service/get_stream.go", "src/objectserver/internal/controller/http/objects/objects_rest.go: Head, Get, Put", "src/objectserver/internal/controller/http/temp/temp_mid.go: FilterEmptyRequest"]}
{"id": "C138", "title": "The capacity shown for the data servers is that of the drives they store on", "statement": "The used, free and total space that the page of the data servers shows is the sum over the file systems that data servers store shards on, each counted once; for every file system the three add up and the reserve of the system counts neither as free nor as total.", "quantifier": "every report of a file system, machine, set of mount points, settings of the servers, placement of servers on machines", "why_tests_cant": "A test runs on one machine with its one file system, where the root is the drive that is stored on.", "anchors": ["src/common/system/disk/stat_linux.go: GetInfo", "src/common/system/system_info.go: NewInfo", "src/common/system/syncer.go: Sync", "src/objectserver/internal/usecase/component/driver_manager.go: Update", "src/adminserver/ui/src/pages/server/data.vue: updateInfo"]}
{"id": "C139", "title": "A shard is not lost by moving it", "statement": "A shard that is on the drive of a data server is still readable on one of the two servers after any attempts to move it to another data server, whatever the kernels of the two write back and whichever of the servers loses power, when and how often.", "quantifier": "every content, remains of earlier attempts at the receiver, sequence of steps of the transfer, of write-backs of both kernels and of losses of power", "why_tests_cant": "A test would have to cut the power of the receiver within seconds of a successful transfer.", "anchors": ["src/objectserver/internal/usecase/service/migration_service.go: writeStream, sendFileTo, SendingTo, FinishObject, OpenFile", "src/objectserver/internal/controller/grpc/migration_server.go: ReceiveData, FinishReceive"]}
{"id": "C140", "title": "Looking after the drives starts at once, keeps its pace and ends with stop", "statement": "The goroutines that update the table of drives start without waiting for the ticker, make at most one update for every tick and the first, owe few updates after a delay, make none after they were stopped, and leave nothing behind then.", "quantifier": "every interleaving of the ticker, the goroutine that passes ticks on, the one that updates, the start and the stop; every number of openings of a data server", "why_tests_cant": "Needs a goroutine that is delayed by a minute at the right place, or months of leaving and joining.", "anchors": ["src/common/util/util.go: ImmediateTick", "src/objectserver/internal/usecase/component/driver_manager.go: StartAutoUpdate", "src/objectserver/internal/app/app.go: Run"]}
{"id": "C141", "title": "An answer that looks like an object is the object", "statement": "If anything fails while an object is read from a drive, sent to the API server and from there to a client or through the administration server, the client sees it: by a status other than 200 or by a connection that ends early. An answer with status 200 that ends in order has exactly the bytes of the object.", "quantifier": "every content, division into pieces, place and kind of failure (error of the drive, panic, refusal, lost connection) on each of the hops", "why_tests_cant": "A failure has to happen after the first byte was sent, in the middle of a large download.", "anchors": ["src/objectserver/internal/controller/http/objects/objects_rest.go: Get", "src/apiserver/internal/controller/http/objects_api.go: Get", "src/apiserver/internal/usecase/service/get_stream.go: request, Read", "src/adminserver/internal/controller/http/object.go: Download", "src/adminserver/internal/usecase/webapi/api_server.go: GetObjects", "src/common/response/response.go: FailErr, OkHeader"]}
{"id": "C142", "title": "Writes accepted while slots move are not lost", "statement": "When slots have moved to another metadata server, every write that was answered with success, before, during or after the move and by whichever server, is at the server that the table of slots names.", "quantifier": "every order of the steps of the migration, of writes (check and execution apart) at both servers, and of the moments at which the servers read the table of slots", "why_tests_cant": "The check of a write and its execution have to lie on different sides of a migration, or the table of a server has to be old.", "anchors": ["src/metaserver/internal/controller/grpc/middleware.go: CheckWritableUnary, CheckKeySlot", "src/metaserver/internal/controller/http/middleware.go: CheckInNormal, CheckKeySlot", "src/metaserver/internal/usecase/service/hashslot_service.go: AutoMigrate, migrateMetadata, FinishReceiveItem", "src/metaserver/internal/usecase/db/hashslot_db.go: Save, GetEdgeProvider"]}
{"id": "C143", "title": "An object is found while its slot moves", "statement": "A metadata server that answers a read, instead of naming another server, answers with every write that was acknowledged before; also while slots move, and after.", "quantifier": "every order of the steps of the migration, of writes and of the moments at which both servers read the table of slots; reads at any moment", "why_tests_cant": "A read has to come between the removal of an object at its old server and the change of the table of that server.", "anchors": ["src/metaserver/internal/controller/grpc/middleware.go: CheckKeySlot", "src/metaserver/internal/controller/grpc/metadata_server.go: GetMetadata, GetVersion", "src/metaserver/internal/usecase/service/hashslot_service.go: AutoMigrate, migrateMetadata", "src/metaserver/internal/usecase/logic/hashslot_logic.go: IsKeyOnThisServer"]}
{"id": "C144", "title": "An upload is recorded whole or not at all, and never hides behind an older one", "statement": "Uploads of one object, at the same time or one after another, whose calls of the metadata server may fail: an object that is recorded has a version when no upload is under way, an upload that was answered with an error left no version, and an upload that was answered with success is stored, or a later one is, whatever the limit of the bucket removes.", "quantifier": "every number and order of uploads of one object, outcome of every call (carried out or not, answered or not), answers of reads that may be old, and every limit of the bucket", "why_tests_cant": "Two calls of one upload have to straddle a failure, or two uploads have to interleave.", "anchors": ["src/apiserver/internal/usecase/service/object_service.go: StoreObject", "src/apiserver/internal/usecase/service/meta_service.go: SaveMetadata", "src/apiserver/internal/usecase/repo/meta_repo.go: Insert"]}
{"id": "C145", "title": "Discovery recovers from outages and ends when it is closed", "statement": "The list of servers that discovery has of a service is what etcd has, but for changes that are on their way; after any failures of etcd it comes to be so again once etcd works; and after Close discovery ends.", "quantifier": "every sequence of registrations, failed reads, interrupted and reopened watches, and deliveries", "why_tests_cant": "A server has to register or vanish during the seconds in which a watch is down, or etcd has to fail at the start of a server.", "anchors": ["src/common/registry/etcd_discovery.go: NewEtcdDiscovery, initService, asyncWatch", "src/common/registry/service_list.go: combine"]}
{"id": "C146", "title": "Requests that continue one upload at the same time do not spoil it", "statement": "Whatever requests with one resume token run at the same time, as when a client gave up waiting and sends its part again: if the upload is committed and answered with success, its shards are those of the object.", "quantifier": "every number of shards and blocks, every number of requests with parts of the object, and every order of their checks, appends at every data server, and commits", "why_tests_cant": "Two requests with one token have to interleave their appends.", "anchors": ["src/apiserver/internal/controller/http/big_api.go: Patch", "src/apiserver/internal/usecase/service/rs_resumable_stream.go: CurrentSize", "src/apiserver/internal/usecase/service/rs_encoder.go: Write, Flush"]}
{"id": "C147", "title": "A lost shard is stored once again", "statement": "When shards of an object are lost and the object is read, any number of times, the data servers hold at most one file of each shard: a read does not write a shard that an earlier read has written already.", "quantifier": "every number of shards and servers, every order of losses, stops and starts of servers and reads, and every choice of servers by the reads", "why_tests_cant": "The files pile up over many reads on servers that no version names, so nothing a client sees changes.", "anchors": ["src/apiserver/internal/usecase/service/rs_get_stream.go: NewRSGetStream, Close", "src/apiserver/internal/usecase/service/object_service.go: GetObject", "src/apiserver/internal/usecase/grpcapi/meta_server.go: UpdateVersion", "src/metaserver/internal/controller/grpc/metadata_server.go: UpdateVersion"]}
