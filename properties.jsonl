{"id": "C01", "title": "Encode/decode round trip", "statement": "Decoding the bytes produced by encoding a value, at the value's own type, returns exactly that value and consumes exactly the bytes that were written, whatever bytes stand before and after it in the message. Holds for every combination of nested structs, slices, pointers to structs, strings, byte arrays, fixed and variable-length integers, floats and UUIDs on which encoder and decoder implement the same format.", "quantifier": "every codec type (arbitrarily nested), every value of it that its length prefixes can represent, every surrounding byte context that keeps the value in the 4096-byte peek window", "why_tests_cant": "types nest without bound and values are unbounded; tests pick one or two values per type", "anchors": ["encoder.go: encodeObject, encodeObjectWorker, encodeStruct, encodeArray, encodeCompactArray", "decoder.go: peekObject, peekObjectWorker, peekObjectStruct, peekObjectFixedArray"]}
{"id": "C02", "title": "Truncated data is never taken for a value", "statement": "If only a proper prefix of an encoded value has been received, decoding reports 'not enough data'; it never returns a value and never panics.", "quantifier": "every round-trip type, every value, every proper prefix of its encoding", "why_tests_cant": "the prefixes times values space is unbounded; the existing partial tests use a handful of values and skip boundary prefixes", "anchors": ["decoder.go: peekObjectWorker, peekNullableData16, peekFixedData, peekVarUint, peekNullableBytes"]}
{"id": "C03", "title": "Decoder is bounded and local on arbitrary bytes", "statement": "On arbitrary (even hostile) bytes every successful decode ends at an offset between its start and the end of the available data, and its outcome depends only on the bytes it consumed: any bytes appended later do not change a result that was already decided.", "quantifier": "every codec type, every byte string, every start offset, every continuation", "why_tests_cant": "needs all byte strings of all lengths", "anchors": ["decoder.go: all peek* functions"]}
{"id": "C04", "title": "Variable-length integers are faithful and short", "statement": "Writing any 32- or 64-bit signed or unsigned integer in variable-length form and reading it back yields the same integer; the encoding has at most 5 (32-bit) or 10 (64-bit) bytes, exactly as many 7-bit groups as the (zigzagged) magnitude needs, and only its last byte has a clear top bit.", "quantifier": "all 2^32 and 2^64 values, every surrounding context", "why_tests_cant": "2^64 values cannot be enumerated", "anchors": ["encoder.go: makeZigzag32, makeVarUint, makeZigzag64, makeVarUint64", "decoder.go: peekVarUint, peekVarInt, peekVarUint64, peekVarInt64"]}
{"id": "C05", "title": "Fixed-width integers use big-endian two's complement", "statement": "Fixed-width integers appear on the wire as exactly 1, 2, 4 or 8 bytes whose base-256 big-endian value is the integer modulo 2^width, and decoding is sign-correct.", "quantifier": "all values of all widths", "why_tests_cant": "2^64 values", "anchors": ["encoder.go: encodeInt8..encodeUint64, convertInt32", "decoder.go: peekInt8..peekUint64"]}
{"id": "C06", "title": "Null and empty stay distinct", "statement": "For nullable strings and nullable byte arrays (plain and compact) the null value and the empty value have different encodings and decode back to null and to empty respectively; a plain string decoder reads null as the empty string.", "quantifier": "every nullable type, every surrounding context", "why_tests_cant": "must hold in every context and for every continuation", "anchors": ["encoder.go: encodeNullableString, encodeCompactNullableString, encodeNullableBytes, encodeCompactNullableBytes", "decoder.go: peekNullableData16, peekCompactNullableBytes, peekNullableBytes"]}
{"id": "C07", "title": "Every string is transportable", "statement": "A string written by the encoder is read back as the same string, whatever its length.", "quantifier": "every byte string used as a string value", "why_tests_cant": "depends on lengths far beyond what tests use (the 16-bit length prefix wraps at 32768)", "anchors": ["encoder.go: encodeNullableString", "decoder.go: peekNullableData16"]}
{"id": "C08", "title": "Compact field annotation is honoured by both directions", "statement": "A struct field annotated as compact is decoded in the same (compact) format in which it is encoded, so structs with compact fields round-trip.", "quantifier": "every field type that may carry the annotation, every value", "why_tests_cant": "a per-type, per-value claim; existing tests decode compact-annotated structs through a different type", "anchors": ["encoder.go: encodeObjectWorker (compact branches)", "decoder.go: peekObjectWorker, kafkaTags"]}
{"id": "C09", "title": "Null arrays in requests are handled", "statement": "A null (length -1) array inside a request is decoded as an absent array without crashing the server; a null array at top level decodes to nil.", "quantifier": "every struct type with a slice field, every context", "why_tests_cant": "requires all request shapes", "anchors": ["decoder.go: peekObjectFixedArray, peekObjectStruct"]}
{"id": "C10", "title": "Tagged fields round trip deterministically", "statement": "The tagged-field section written for a tag map is the same bytes whatever order the map is iterated in, lists the tags in ascending order, and reading it back without knowing the fields yields exactly the same tag numbers, each with the encoded bytes of its value.", "quantifier": "every finite tag map, every iteration order of the map", "why_tests_cant": "map iteration order is random and maps are unbounded", "anchors": ["encoder.go: encodeTags", "decoder.go: peekTags"]}
{"id": "C11", "title": "Framing does not depend on how TCP splits the stream", "statement": "However the bytes a client sends are split into reads, the server processes the same sequence of requests: exactly the size-prefixed messages of the stream, in order, none lost, duplicated, merged or reordered.", "quantifier": "every client byte stream and every way of splitting it into reads", "why_tests_cant": "exponentially many splits of every stream", "anchors": ["kafka-client.go: handle", "inbound-utils.go: getMessage"]}
{"id": "C12", "title": "A request is processed only when complete, and then without further input", "statement": "The server starts processing a request exactly when its last byte has arrived: not before, and without needing any byte of a following request.", "quantifier": "every partial and complete message prefix of a stream", "why_tests_cant": "all prefixes of all streams", "anchors": ["inbound-utils.go: getMessage", "kafka-client.go: handle"]}
{"id": "C13", "title": "Responses are framed correctly and carry the request's correlation id", "statement": "Every response on the wire is a 4-byte size equal to the number of bytes that follow, then the correlation id of the request it answers, then the payload; a concatenation of responses can be split back into exactly those responses.", "quantifier": "every response payload below 2 GiB, every correlation id, every sequence of responses", "why_tests_cant": "all payloads and all 2^32 correlation ids", "anchors": ["kafka-message.go: send", "kafka-client.go: dispatcher"]}
{"id": "C14", "title": "One response per request, in order", "statement": "On one connection, the responses sent are, in order, exactly one per processed request, with matching correlation ids, under every interleaving with other connections and test-API calls.", "quantifier": "every request sequence on a connection, every interleaving", "why_tests_cant": "all schedules", "anchors": ["kafka-client.go: handle, dispatcher", "kafka-message.go: send"]}
{"id": "C15", "title": "API dispatch is unambiguous", "statement": "The handler that runs is determined by the pair (api key, api version) of the request header: two different pairs never share a dispatch key, and only the eleven supported pairs reach a handler.", "quantifier": "all 2^16 x 2^16 (key, version) pairs", "why_tests_cant": "2^32 pairs, including negative ones", "anchors": ["api-keys.go: makeApiKey, initializeApis", "kafka-client.go: dispatcher"]}
{"id": "C16", "title": "ApiVersions advertises exactly what is served", "statement": "The ApiVersions response lists, in ascending key order and once each, exactly the supported api keys, and for each the version range of which every version is dispatchable, whatever order the dispatch table is iterated in.", "quantifier": "every iteration order of the dispatch table; every advertised key and version", "why_tests_cant": "map iteration order is random", "anchors": ["api_versions.go: apiVersionsV0", "api-keys.go: initializeApis"]}
{"id": "C17", "title": "A rejected request has no effect", "statement": "A request that is malformed (truncated header or body, unsupported api/version, or surplus bytes) produces no response bytes and leaves topics, records and committed offsets unchanged.", "quantifier": "every byte string received as a message, every server state", "why_tests_cant": "all malformed byte strings", "anchors": ["kafka-client.go: dispatcher", "inbound-utils.go: readRequest"]}
{"id": "C18", "title": "Every well-formed request is accepted", "statement": "A request that is well-formed for a supported API is decoded to exactly the fields the client sent and answered, whatever its size.", "quantifier": "every supported API, every request value, every correlation id and client id", "why_tests_cant": "requests are unbounded (4096-byte peek window)", "anchors": ["kafka-client.go: dispatcher", "inbound-utils.go: readRequest", "decoder.go: peekFixedData (bufio window)"]}
{"id": "C19", "title": "Creating topics and partitions is idempotent and loses nothing", "statement": "CreatePartitionTopics and posting to an existing topic or partition keep all existing topics, partitions, records and committed offsets.", "quantifier": "every store state, every list of topics, every partition number", "why_tests_cant": "all states and call sequences", "anchors": ["datastore.go: createTopic, createPartition", "kafka-mock.go: CreatePartitionTopics, SimplePost, ExtendedPost"]}
{"id": "C20", "title": "A record never changes or moves", "statement": "Once a record is readable at (topic, partition, offset), every later state in every history of posts, commits, fetches, offset resets, group calls and restarts has the same record at that offset; logs only grow.", "quantifier": "every history of operations from every state", "why_tests_cant": "all histories", "anchors": ["datastore.go: postRecord", "kafka-mock.go"]}
{"id": "C21", "title": "The log of a partition is the sequence of posts to it", "statement": "With any number of concurrent posters, the records of a partition are exactly the records posted to it, each once, in the order the posts took effect; posts of one goroutine keep their order. No post is lost.", "quantifier": "every number of concurrent posters and every interleaving, including concurrent creation of the same topic and partition", "why_tests_cant": "all interleavings", "anchors": ["datastore.go: createTopic, createPartition, postRecord", "kafka-mock.go: SimplePost, ExtendedPost"]}
{"id": "C22", "title": "Partitions and groups are isolated", "statement": "Posting to, committing in, or resetting one (topic, partition[, group]) never changes the records of another partition or the committed offset of another group, topic or partition.", "quantifier": "every pair of distinct targets, every operation, every state", "why_tests_cant": "all pairs of targets and states", "anchors": ["datastore.go", "offset_commit.go: offsetCommitV2", "kafka-mock.go: SetConsumerGroupOffset"]}
{"id": "C23", "title": "Committed offset is a function of the history", "statement": "At any time the offset OffsetFetch returns for (topic, partition, group) is the maximum of 0 or the last SetConsumerGroupOffset value and of all offsets committed since; it is 0 for a group that never committed.", "quantifier": "every history of commits, resets, fetches and posts by any number of clients in any interleaving", "why_tests_cant": "all histories", "anchors": ["offset_commit.go: offsetCommitV2", "offset_fetch.go: offsetFetchV1", "datastore.go: groupCommittedOffset", "kafka-mock.go: SetConsumerGroupOffset"]}
{"id": "C24", "title": "Commits never move a group backwards and commute", "statement": "OffsetCommit never decreases a committed offset; replaying or reordering a set of commits gives the same final committed offset.", "quantifier": "every multiset and order of commits, every state", "why_tests_cant": "all permutations of all commit sequences", "anchors": ["offset_commit.go: offsetCommitV2"]}
{"id": "C25", "title": "OffsetCommit answers every requested partition", "statement": "The OffsetCommit response lists the requested topics and partitions in request order, with error code 3 exactly for those that do not exist and 0 for the rest.", "quantifier": "every request, every store state, every interleaving with other activity", "why_tests_cant": "all requests and states", "anchors": ["offset_commit.go: offsetCommitV2"]}
{"id": "C26", "title": "OffsetFetch reports exactly the existing requested partitions and changes nothing observable", "statement": "The OffsetFetch response contains each requested partition that exists (once per request occurrence) with its committed offset, and no others, whatever order the server's map is iterated in; performing it does not change what any later call returns.", "quantifier": "every request, every state, every map iteration order", "why_tests_cant": "all requests, states and iteration orders", "anchors": ["offset_fetch.go: offsetFetchV1", "datastore.go: groupCommittedOffset"]}
{"id": "C27", "title": "Read your commits", "statement": "If an OffsetCommit of offset o for (topic, partition, group) was acknowledged without error before an OffsetFetch for it was issued by any client, and no reset happened since, that OffsetFetch returns at least o.", "quantifier": "every interleaving of any number of clients", "why_tests_cant": "all interleavings", "anchors": ["offset_commit.go", "offset_fetch.go"]}
{"id": "C28", "title": "SetConsumerGroupOffset is exact", "statement": "After SetConsumerGroupOffset on an existing partition the committed offset is exactly the given value, even if smaller than before; on an unknown topic or partition nothing changes.", "quantifier": "every state and argument", "why_tests_cant": "all states and arguments", "anchors": ["kafka-mock.go: SetConsumerGroupOffset"]}
{"id": "C29", "title": "ListOffsets latest and earliest", "statement": "ListOffsets with timestamp -1 returns the number of records of the partition, with -2 returns offset 0 (and the first record's timestamp when there is one); an unknown partition is answered with error code 3, and every requested partition is answered in request order.", "quantifier": "every request and state", "why_tests_cant": "all requests and states", "anchors": ["list_offsets.go: listOffsetsV1"]}
{"id": "C30", "title": "ListOffsets by timestamp", "statement": "For any other timestamp T, the returned offset k is the unique position such that all records from k on have timestamp >= T and the record just before k, if any, has timestamp < T; when timestamps are non-decreasing this is the first record with timestamp >= T.", "quantifier": "every log, every T, also while records are being posted concurrently", "why_tests_cant": "all logs", "anchors": ["list_offsets.go: listOffsetsV1"]}
{"id": "C31", "title": "ListOffsets reports the timestamp of the offset it returns", "statement": "The timestamp reported with an offset found by time is the timestamp of the record at that offset.", "quantifier": "every log and T for which a record with timestamp >= T exists", "why_tests_cant": "all logs", "anchors": ["list_offsets.go: listOffsetsV1"]}
{"id": "C32", "title": "Fetch returns the log from the requested offset, unaltered", "statement": "The records a Fetch returns for a partition are exactly consecutive records of that partition's log starting at the requested offset, labelled with consecutive offsets from it, with their keys (null or not), values and timestamps unchanged, even while records are being posted.", "quantifier": "every log, offset, size limit, wait time and interleaving with posts; requests with one partition per topic", "why_tests_cant": "all logs and interleavings", "anchors": ["fetch.go: fetchV2", "encoder.go: appendMessage, encodeMessageSetV1"]}
{"id": "C33", "title": "Fetch respects the size limit and declares its size exactly", "statement": "The bytes of the record set returned for a partition never exceed the requested maximum (for a non-negative maximum), and the declared record-set size equals the number of record-set bytes that follow.", "quantifier": "every log with records below 2 GiB, every request", "why_tests_cant": "all logs and limits", "anchors": ["encoder.go: appendMessage, encodeMessageSetV1, messageV1"]}
{"id": "C34", "title": "A consumer that follows HighWatermark sees every record exactly once", "statement": "When Fetch returns, it has delivered every record of the partition that was present; the HighWatermark it reports is the offset after the last delivered record, and a consumer that keeps fetching from it receives the log in order without gaps or duplicates.", "quantifier": "every sequence of fetches and posts in any interleaving", "why_tests_cant": "all histories", "anchors": ["fetch.go: fetchV2"]}
{"id": "C35", "title": "Each partition of a multi-partition Fetch gets its own records", "statement": "In the Fetch response, the entry for a requested (topic, partition) carries the records and HighWatermark of that (topic, partition).", "quantifier": "every request, in particular several partitions per topic", "why_tests_cant": "all request shapes; tests only use one partition", "anchors": ["fetch.go: fetchV2 (fds indexing)"]}
{"id": "C36", "title": "Fetch always completes", "statement": "A Fetch completes at the latest after its maximum wait time when no new records arrive, even if the available records do not fit the size limit.", "quantifier": "every log, size limit and wait time", "why_tests_cant": "non-termination cannot be observed by a finite test", "anchors": ["fetch.go: fetchV2", "encoder.go: appendMessage"]}
{"id": "C37", "title": "Fetch never crashes the server", "statement": "No decodable Fetch request makes the server panic, whatever offsets, partitions and sizes it names.", "quantifier": "every decodable request and store state", "why_tests_cant": "all requests", "anchors": ["fetch.go: fetchV2"]}
{"id": "C38", "title": "Fetch, ListOffsets, Metadata, ApiVersions and group-membership calls are read-only", "statement": "Fetch, ListOffsets, Metadata, ApiVersions, FindCoordinator, JoinGroup, SyncGroup, Heartbeat and LeaveGroup change no topic, record or committed offset.", "quantifier": "every request and state, every interleaving", "why_tests_cant": "all requests and states", "anchors": ["fetch.go", "list_offsets.go", "metadata.go", "sync_group.go", "join_group.go", "leave_group.go", "heartbeat.go", "find_coordinator.go", "api_versions.go"]}
{"id": "C39", "title": "Record checksum covers magic to value and detects corruption", "statement": "The checksum field of a delivered record is the CRC-32C of exactly the bytes after it (magic byte to value), does not depend on the record's offset, and changing any single byte of that region makes the checksum wrong.", "quantifier": "every record, every position and replacement byte", "why_tests_cant": "all records and corruptions", "anchors": ["encoder.go: crc, appendMessage"]}
{"id": "C40", "title": "Message size field follows the protocol", "statement": "The message_size field of a delivered record is the number of bytes of that record that follow the field.", "quantifier": "every record", "why_tests_cant": "all records", "anchors": ["encoder.go: appendMessage (34 + len(key) + len(value))"]}
{"id": "C41", "title": "SyncGroup assigns exactly the existing partitions", "statement": "The assignment in a SyncGroup response decodes to exactly the existing topics, each once, each with exactly its existing partitions, whatever order the server's maps are iterated in.", "quantifier": "every store state, every map iteration order", "why_tests_cant": "all states and orders", "anchors": ["sync_group.go: syncGroupV0, makeMemberAssignment"]}
{"id": "C42", "title": "A client never becomes group leader", "statement": "JoinGroup always answers with a leader different from the client's member id, so a conforming client sends no assignments; a SyncGroup that does carry assignments is rejected.", "quantifier": "every JoinGroup and SyncGroup request", "why_tests_cant": "all requests", "anchors": ["join_group.go: joinGroupV1", "sync_group.go: syncGroupV0"]}
{"id": "C43", "title": "Metadata and FindCoordinator lead clients to this server", "statement": "Every Metadata response names exactly one broker, reachable at this server's port, answers every requested topic once in request order, and every partition leader it names is that broker; FindCoordinator returns the same node and port.", "quantifier": "every request, every server port below 2^31", "why_tests_cant": "all requests", "anchors": ["metadata.go: metadataV1", "find_coordinator.go: findCoordinatorV0"]}
{"id": "C44", "title": "Metadata lists the partitions that exist", "statement": "The partitions Metadata reports for a topic are the partitions that were created for it.", "quantifier": "every store state and request", "why_tests_cant": "all states; tests always create partition 2", "anchors": ["metadata.go: metadataV1"]}
{"id": "C45", "title": "Partition numbers are kept apart", "statement": "Posting to two different partition numbers of a topic never mixes their records.", "quantifier": "every pair of int partition numbers", "why_tests_cant": "all int pairs (the int is cut to 32 bits)", "anchors": ["kafka-mock.go: SimplePost, ExtendedPost, CreatePartitionTopics"]}
{"id": "C46", "title": "Restart keeps the data", "statement": "Restart (and any stop/start sequence) preserves every topic, record and committed offset.", "quantifier": "every store state, every lifecycle call sequence and schedule", "why_tests_cant": "all states and schedules", "anchors": ["kafka-mock.go: Restart, Start, RequestStop, WaitForTermination"]}
{"id": "C47", "title": "WaitForTermination means terminated", "statement": "When WaitForTermination returns after a start, the accept loop and every connection handler have ended, and the mock can be started again without panicking.", "quantifier": "every number of connections, every schedule of accept, connection and caller goroutines", "why_tests_cant": "all schedules", "anchors": ["kafka-mock.go: run, WaitForTermination, Start", "kafka-client.go: handle"]}
{"id": "C48", "title": "Shutdown bookkeeping never goes negative", "statement": "No schedule of accepting, disconnecting and stopping makes a wait-group counter negative (which would panic); the counters equal the number of live goroutines they stand for.", "quantifier": "every schedule, any number of connections", "why_tests_cant": "all schedules", "anchors": ["kafka-mock.go: run (active, wg, mu)"]}
{"id": "C49", "title": "After FinishRequests or RequestStop every connection winds down", "statement": "Once cancelled, a connection performs at most one more read, processes only requests already buffered (plus that read), then closes; new connections are closed without being served.", "quantifier": "every buffer content, every schedule", "why_tests_cant": "all schedules", "anchors": ["kafka-client.go: handle", "kafka-mock.go: FinishRequests, RequestStop, run"]}
{"id": "C50", "title": "The connection registry tracks live connections", "statement": "After a connection ends, it is no longer registered, and every live connection is registered.", "quantifier": "every order of connects and disconnects", "why_tests_cant": "all orders; tests never look at the registry after a disconnect", "anchors": ["kafka-mock.go: run (cxnNumber captured by the close callback)"]}
{"id": "C51", "title": "RequestStop tears down exactly once", "statement": "However many times and from however many goroutines RequestStop is called, the listener is closed and the context cancelled at most once per start, and calling it before Start is harmless.", "quantifier": "every number of calls and interleavings", "why_tests_cant": "all interleavings", "anchors": ["kafka-mock.go: RequestStop"]}
{"id": "C52", "title": "A waiting Fetch ends when the server is told to finish", "statement": "After FinishRequests (or RequestStop), a Fetch that has found no records completes within one more polling round, whatever its maximum wait time.", "quantifier": "every request that found nothing, every schedule", "why_tests_cant": "all schedules", "anchors": ["fetch.go: fetchV2", "kafka-mock.go: FinishRequests"]}
{"id": "C53", "title": "Posted data is captured at the time of the post", "statement": "Changing the key or value buffer after SimplePost or ExtendedPost returned does not change what clients fetch.", "quantifier": "every buffer, every later mutation", "why_tests_cant": "all mutations at all times", "anchors": ["datastore.go: postRecord (keeps the caller's slices)"]}
{"id": "C54", "title": "Dropped connections are recognised, other errors are not", "statement": "A read or accept error is treated as a normal disconnect exactly when it is end-of-file, a closed connection, or a connection reset.", "quantifier": "every error value (wrapped to any depth)", "why_tests_cant": "all error chains", "anchors": ["net-utils.go: wasSocketClosed"]}
{"id": "C55", "title": "Record checksum follows the protocol", "statement": "The checksum of a delivered record (message format 1) is the CRC-32 (IEEE 802.3) that the Kafka protocol prescribes for that format.", "quantifier": "every record", "why_tests_cant": "the client used by the tests does not verify checksums", "anchors": ["encoder.go: crcTable (crc32.Castagnoli), crc"]}
{"id": "C56", "title": "No dereference of a missing topic or partition", "statement": "No connection goroutine and no posting call ever dereferences a topic or partition that is not in the store, and a connection goroutine that is processing requests is never blocked.", "quantifier": "every reachable state of the mock, every interleaving of requests, posts and lifecycle calls", "why_tests_cant": "all interleavings of store accesses", "anchors": ["fetch.go: fetch", "list_offsets.go: listOffsets", "offset_fetch.go: offsetFetch", "datastore.go: postRecord, getPartition, commitOffset"]}
{"id": "C57", "title": "A post takes effect between call and return", "statement": "Between the call of SimplePost or ExtendedPost and its return exactly one record is appended on its behalf: to the named partition, after all records that were there at the call, with the key, value, headers and timestamp given (SimplePost: the time read between call and return); it is in the log when the call returns.", "quantifier": "every run of the mock, any number of concurrent callers and connections", "why_tests_cant": "all interleavings", "anchors": ["kafka-mock.go: SimplePost, ExtendedPost", "datastore.go: postRecord"]}
{"id": "C58", "title": "SimplePost timestamps ascend", "statement": "The timestamps of the records of a partition that were posted with SimplePost ascend with the offset.", "quantifier": "every run of the mock, any number of concurrent callers", "why_tests_cant": "a race between two callers", "anchors": ["kafka-mock.go: SimplePost (reads the clock before it takes the lock)"]}
{"id": "C59", "title": "What a client reads is true of the mock while its request is served", "statement": "A client whose request is answered reads a response that fits the request and the data: to Fetch, each requested partition with the records from the requested offset to a point not before the end of the log when the request was taken up; to ListOffsets, the latest offset, or the earliest record of the timestamp, at a moment of the request; to OffsetCommit, error 3 for partitions that did not exist, and otherwise success, with the offset at least the committed one; to OffsetFetch, each existing requested partition, with the group's offset at a moment of the request; to SyncGroup, an assignment with every topic and partition that existed when the request was taken up.", "quantifier": "every run of the mock from New, every connection, every well-formed request, any number of concurrent callers and connections", "why_tests_cant": "all interleavings of all goroutines, all requests", "anchors": ["kafka-client.go: handle, dispatcher", "fetch.go", "list_offsets.go", "offset_commit.go", "offset_fetch.go", "sync_group.go"]}
{"id": "C60", "title": "What has returned is visible everywhere", "statement": "When SimplePost or ExtendedPost has returned, every Fetch taken up later that covers its offset is answered with the record, and every ListOffsets for the latest offset is told a later one. When a commit was acknowledged, every OffsetFetch of the group taken up later is answered with at least the committed offset, unless it is reset. When SetConsumerGroupOffset has returned, every OffsetFetch taken up later gives exactly its offset, unless it is committed or reset again. When CreatePartitionTopics has returned, every SyncGroup taken up later lists the new partitions and every ListOffsets finds them.", "quantifier": "every run of the mock, every pair of connections, any number of concurrent callers and connections", "why_tests_cant": "all interleavings of all goroutines", "anchors": ["kafka-mock.go: SimplePost, ExtendedPost, CreatePartitionTopics, SetConsumerGroupOffset", "kafka-client.go: dispatcher"]}
{"id": "C61", "title": "Fields are read as the protocol defines, whatever bytes arrive", "statement": "A BOOLEAN is true exactly if its byte is not 0; FLOAT64 and UUID are their 8 and 16 bytes; a variable-length number is the base-128 value of its bytes modulo 2^32 or 2^64 (for signed numbers, the number whose zigzag image that is), also in a form longer than necessary, and five (ten) bytes with bit 7 set are an incomplete number; every negative length means null; the lengths of compact types are unsigned variable-length numbers.", "quantifier": "all byte sequences, every context", "why_tests_cant": "all encodings, including those the mock itself never writes", "anchors": ["decoder.go: peekBool, peekFloat64, peekVarUint, peekVarUint64, peekVarInt, peekVarInt64, peekNullableData16, peekNullableBytes, peekCompactNullableBytes, peekObjectFixedArray"]}
{"id": "C62", "title": "Null and empty arrays stay distinct", "statement": "A nil slice is written as length -1 (compact: 0) and an empty slice as length 0 (compact: the encoding of 1), and each is read back as what it was.", "quantifier": "every element type, every context", "why_tests_cant": "all element types and contexts", "anchors": ["encoder.go: encodeArray, encodeCompactArray", "decoder.go: peekObjectVarArray, peekObjectCompactVarArray, peekObjectFixedArray"]}
{"id": "C63", "title": "The functions of the data store act at once", "statement": "Although createTopic, getTopic, createPartition, getPartition, postRecord, groupCommittedOffset and the locked sections of Fetch, OffsetCommit and SetConsumerGroupOffset consist of several accesses through pointers that interleave with those of other goroutines, every run of the mock is a run in which each of them happens at one moment between its Lock and Unlock. In particular no update is lost: a partition object has exactly the records that were appended to it, each once and in order, and the committed offsets that its commits and resets give; and a name leads to the same object for ever.", "quantifier": "all interleavings of single accesses of any number of connections and callers", "why_tests_cant": "all interleavings", "anchors": ["datastore.go: lock, unlock, createTopic, getTopic, createPartition, getPartition, postRecord, groupCommittedOffset", "fetch.go: fetchV2", "offset_commit.go: offsetCommitV2", "kafka-mock.go: SetConsumerGroupOffset"]}
{"id": "C64", "title": "The mutexes of the data store never block the mock for good", "statement": "A goroutine that serves a request or is inside a posting function can always make a step, or it waits for a mutex of the store that another goroutine holds, and that one can make a step. No goroutine holds two mutexes of the store; a mutex is free again after at most three steps of its holder; a goroutine that is done with its request or call holds none; and no topic or partition pointer that is used is nil or differs from the one in the store's maps.", "quantifier": "all reachable states, all goroutines", "why_tests_cant": "deadlocks depend on the interleaving", "anchors": ["datastore.go: lock, unlock", "fetch.go: fetchV2", "offset_commit.go: offsetCommitV2", "kafka-mock.go: SetConsumerGroupOffset"]}
{"id": "C65", "title": "No data races on the data store", "statement": "No two goroutines are ever about to access the same variable of the store (a map of topics or partitions, the records or the committed offsets of a partition) at the same time, one of them to write it.", "quantifier": "all reachable states, all pairs of goroutines", "why_tests_cant": "races depend on the interleaving; the race detector sees only the runs that happen", "anchors": ["datastore.go", "list_offsets.go: listOffsetsV1", "sync_group.go: makeMemberAssignment"]}
{"id": "C66", "title": "A client that goes away while it is being answered does not bring the mock down", "statement": "When writing a response fails, nothing more is written for that request. If the client has gone away, the connection goroutine does not panic because of it: it carries on with its loop (and ends at the next read). If the client is still connected and idle, the failed write is reported by a panic.", "quantifier": "all runs of the mock, all connections, all requests, any of the three writes of a response", "why_tests_cant": "needs writes that fail at chosen places and clients that reset the connection at chosen moments", "anchors": ["kafka-client.go: dispatcher, isConnected, handle", "kafka-message.go: send"]}
{"id": "C67", "title": "Fetch waits as long as it was asked to, and not for nothing", "statement": "A Fetch that is answered before its MaxWaitMs have passed, while the mock has not been told to finish, is answered because there is data: in the partitions it names there are at least MinBytes bytes of records at or after the requested offsets when it is answered, and the answer contains a record. So an empty answer is never sent before MaxWaitMs have passed.", "quantifier": "all requests, all contents of the store, all interleavings with other goroutines", "why_tests_cant": "depends on when records are posted relative to the polls of the waiting request", "anchors": ["fetch.go: fetchV2"]}
{"id": "C68", "title": "The lifecycle calls return", "statement": "With a fair scheduler, and unless a call overlaps with Start: RequestStop returns, and a stop is then requested. Start returns, or panics because the mock is started already. WaitForTermination returns if a stop has been requested or if RequestStop is called later. Restart returns; unless a stop was requested meanwhile, the mock then listens, on a listener opened since Restart was called.", "quantifier": "all endless fair runs of the mock with any number of callers, accept loops and connections, in any state, in which no goroutine is in Start, RequestStop, WaitForTermination or Restart while another is in Start", "why_tests_cant": "that a call always returns is a liveness property; a test can only wait for some time in some schedules", "anchors": ["kafka-mock.go: Start, RequestStop, WaitForTermination, Restart, run", "kafka-client.go: dispatcher"]}
{"id": "C69", "title": "The lifecycle calls do not panic", "statement": "RequestStop, WaitForTermination and Restart never panic. Start panics only if it finds an accept loop running, FinishRequests only if no Start has started one yet.", "quantifier": "all reachable states, all interleavings of calls", "why_tests_cant": "panics of sync.WaitGroup depend on the interleaving of three goroutines", "anchors": ["kafka-mock.go: Start, RequestStop, WaitForTermination, FinishRequests, Restart"]}
{"id": "C70", "title": "What has been read is answered", "statement": "With a fair scheduler, and while nothing panics: every request that is complete in the bytes a connection has read is processed to its end, without any further input, in the order of arrival. If all bytes can be sent, the connection then has sent one response for each of them, in that order, each with the correlation id of its request. This holds also if a stop is requested or FinishRequests is called meanwhile.", "quantifier": "all endless fair runs of the mock with any number of callers and connections, all connections, all moments, all bytes received", "why_tests_cant": "a test sees that some requests are answered in time; it cannot show that no request is left unanswered in any schedule", "anchors": ["kafka-client.go: handle, getMessage, dispatcher", "fetch.go: fetch"]}
{"id": "C71", "title": "A consumer group gets every record once, across crashes", "statement": "A consumer asks for the committed offset of its group in a partition, fetches the partition from there, goes on from the high watermark of each response, and from time to time commits the offset it has reached. At any moment it may crash, forget what it has received since its last successful commit, and start over, on any connection. As long as nobody else moves the group's offset, the messages it has received before its last commit, followed by those received since it started over, are the records of the partition from the group's first offset on, in order, without gap or repetition, labelled with their offsets; the group's committed offset is the one after the last committed message. After every Fetch the consumer has got all records that were in the partition when the Fetch was taken up.", "quantifier": "all runs of the mock, all sequences of these requests and crashes, all connections, all concurrent activity of other clients and callers, all records below 2 GiB", "why_tests_cant": "a test tries a few interleavings of posts, fetches, commits and crashes; the sequences are unbounded", "anchors": ["offset_fetch.go: offsetFetch", "fetch.go: fetch", "offset_commit.go: offsetCommit", "datastore.go: commitOffset, postRecord"]}
{"id": "C72", "title": "No data races on the mock's own variables", "statement": "No two goroutines (callers, accept loops, connections) access the same variable of the mock at the same time when one of them writes it: the fields l, cancelFn, listener and clients, with the map, and the connection counter of the accept loop.", "quantifier": "all runs of the mock with any number of callers and connections, all schedules", "why_tests_cant": "the race detector reports only races between accesses that the test happened to make; it cannot show that no schedule has one", "anchors": ["kafka-mock.go: Start, RequestStop, WaitForTermination, Restart, FinishRequests, run", "kafka-client.go: handle"]}
{"id": "C73", "title": "What a request does with a partition happens at one moment", "statement": "For every Fetch, ListOffsets, OffsetFetch or OffsetCommit that a client sends and the mock answers, there is a moment between the taking up of the request and its answer at which the answer is right: Fetch gives the records the partition then has from the requested offset on; ListOffsets the end, beginning or time position of the log as it then is; OffsetFetch the offset then committed; OffsetCommit raises the offset in one step, at a moment at which the partition exists, and refuses the partition only if there is a moment at which it does not. OffsetCommit changes nothing but what its response says it has accepted, in the order of the request.", "quantifier": "all runs of the mock, all requests, all connections, all concurrent activity of other clients and callers, all records below 2 GiB", "why_tests_cant": "linearizability is about all interleavings; a test sees only a few", "anchors": ["fetch.go: fetchV2", "list_offsets.go: listOffsetsV1", "offset_fetch.go: offsetFetchV1", "offset_commit.go: offsetCommitV2", "datastore.go: commitOffset, postRecord"]}
{"id": "C74", "title": "Only RequestStop and Restart take the mock down", "statement": "FinishRequests cancels the context of the last Start and changes nothing else: listener, accept loop, connections, records, mutex, counters and other callers are untouched. Once the mock is up and no RequestStop is under way, it stays up until RequestStop or Restart is called, whatever else is called (FinishRequests and WaitForTermination included), whatever clients do, and also when the parent context is cancelled: the accept loop keeps accepting from the open listener and the mock counts as started.", "quantifier": "all reachable states, all runs with any number of callers and connections", "why_tests_cant": "a test can observe that the mock is up at some moments after some calls, not that no interleaving takes it down", "anchors": ["kafka-mock.go: FinishRequests, WaitForTermination, RequestStop, Restart, run"]}
{"id": "C75", "title": "A client cannot bring down the mock", "statement": "Nothing a client sends, and no moment at which it disconnects, makes the process that hosts the mock panic: a request that is not acceptable is answered with an error or its connection is closed. The process panics only when the server socket cannot be opened or Accept fails on the open listener.", "quantifier": "all reachable states of the mock with any number of callers and connections, all byte streams of clients", "why_tests_cant": "a test can send some bad requests; the statement is about every byte stream and every interleaving with other connections and calls", "anchors": ["kafka-client.go: handle, dispatcher", "kafka-mock.go: run", "kafka-mock.go: Start, RequestStop, WaitForTermination, Restart, FinishRequests (wait group counters)"]}
{"id": "C76", "title": "A panic in the mock ends the process", "statement": "When a connection's goroutine or an accept loop of the mock panics, the process ends: the deferred functions that Go runs first come to an end, whatever the clients and the other goroutines do.", "quantifier": "all endless runs of the mock under a fair scheduler in which goroutines may panic, all numbers of callers and connections", "why_tests_cant": "a test cannot wait for ever, and cannot try all states in which a panic can happen", "anchors": ["kafka-mock.go: run (deferred function), oc callback", "kafka-client.go: handle (deferred function)"]}
{"id": "C77", "title": "A request does not make the mock reserve more memory than the request is long", "statement": "The room that decoding reserves for the arrays of a request (their announced lengths times the size of their elements) is bounded by a constant factor of the number of bytes of the request.", "quantifier": "all byte strings of all lengths", "why_tests_cant": "a test can measure the memory for some requests; the statement is about every byte string", "anchors": ["decoder.go: peekObjectFixedArray, peekObjectVarArray, peekObjectCompactVarArray", "kafka-client.go: dispatcher"]}
{"id": "C78", "title": "A client is told when a partition does not exist", "statement": "A Fetch, ListOffsets, OffsetCommit or OffsetFetch response reports a partition that does not exist with error UNKNOWN_TOPIC_OR_PARTITION (OffsetFetch: leaves it out), and reports no such error for a partition that exists.", "quantifier": "all requests of all clients in all runs of the mock with any number of callers and connections", "why_tests_cant": "topics and partitions are created by other callers while the request is handled; a test tries a few moments", "anchors": ["datastore.go", "fetch.go", "list_offsets.go", "offset_commit.go", "offset_fetch.go"]}
{"id": "C79", "title": "The members of a group share its partitions", "statement": "Every member of a group gets its own member id, and every partition is assigned to exactly one member.", "quantifier": "all runs of the mock with any number of clients joining, synchronising, sending heartbeats and leaving", "why_tests_cant": "the statement is about every number of members and every order of their requests", "anchors": ["join_group.go", "sync_group.go", "heartbeat.go", "leave_group.go"]}
{"id": "C80", "title": "The mock closes every connection it is done with", "statement": "When the goroutine of a connection ends, the mock has closed the connection, and it does nothing with the connection afterwards.", "quantifier": "all runs of the mock with any number of callers and connections", "why_tests_cant": "a descriptor that stays open is not visible to the client and is reclaimed by a finalizer at an unknown time", "anchors": ["kafka-client.go", "kafka-mock.go"]}
{"id": "C81", "title": "The nodes that Metadata names are brokers that it lists", "statement": "In every Metadata response the controller, and the leader, the replicas and the in-sync replicas of every partition, are among the listed brokers.", "quantifier": "all Metadata requests in all states of the mock", "why_tests_cant": "a test looks at a few responses; the clients that rely on it (for instance to look up a replica) are not in the repository", "anchors": ["metadata.go"]}
{"id": "C82", "title": "A Metadata request for all topics is answered with all topics", "statement": "A Metadata request is answered with exactly the topics it names; one that asks for all topics (null) is answered with all topics of the store.", "quantifier": "all Metadata requests in all states of the mock", "why_tests_cant": "a test asks for some topics in some states", "anchors": ["metadata.go", "decoder.go"]}
{"id": "C83", "title": "A record reaches its consumers with all that was posted", "statement": "Key, value, headers and timestamp of every Fetch response are those given to ExtendedPost.", "quantifier": "all keys, values, headers and timestamps; all runs of the mock between the post and the Fetch", "why_tests_cant": "the statement is about all contents and everything other clients and callers do in between", "anchors": ["kafka-mock.go", "datastore.go", "fetch.go"]}
{"id": "C84", "title": "The latency hook only delays", "statement": "Whatever the mock does when its connections have latencies, it can do without latencies in the same order and with the same results.", "quantifier": "all runs of the mock with any number of callers and connections, with any latency for each connection", "why_tests_cant": "the repository's tests set the hook to reach certain states and conclude something about the mock without it; whether that is justified is a statement about all runs", "anchors": ["kafka-client.go", "kafka-mock.go"]}
{"id": "C85", "title": "The response writer of outbound-utils.go and the encoder write the same bytes", "statement": "For every value that a response may contain, kafkaResponse.Write and encodeObject write the same bytes, so that either may be used for a response.", "quantifier": "all types of the codec and all their values", "why_tests_cant": "there are infinitely many values; the writer is not used by the mock, so no test of a response reaches it", "anchors": ["outbound-utils.go", "encoder.go"]}
{"id": "C86", "title": "Close of a client lets it finish what it has received", "statement": "kafkaClient.Close takes nothing more from the connection, lets the client answer all requests received before, closes the connection, and returns when the client's goroutine has ended. It does not panic.", "quantifier": "all interleavings of any number of callers of Close with the client's goroutine, all requests, and everything else that happens in the mock", "why_tests_cant": "the outcome depends on where the goroutine of the client is when the caller runs; the interleavings cannot be forced by a test", "anchors": ["kafka-client.go"]}
{"id": "C87", "title": "Mocks created at the same time share their dispatch table safely", "statement": "The dispatch table and the version map are package variables that all mocks of a process share. However many goroutines call NewKafkaMock, and whatever requests the mocks already created are serving meanwhile: a request finds the handler of its API key and version if they are among the supported ones and none otherwise; an ApiVersions request gets the complete list; the variables are never accessed by two goroutines at a time when one of them writes; they do not change once a call has returned; and all calls return.", "quantifier": "all interleavings of any number of calls of NewKafkaMock and any number of requests, all orders of map iteration", "why_tests_cant": "the initialisation happens once per process, and the requests read the variables without taking the mutex; a test sees one interleaving", "anchors": ["api-keys.go: initializeApis", "api_versions.go: apiVersionsV0", "kafka-mock.go: NewKafkaMock", "kafka-client.go: dispatcher"]}
{"id": "C88", "title": "A consumer that begins at an offset found by ListOffsets gets the log from there", "statement": "A consumer asks ListOffsets for the beginning, the end or a time of a partition, fetches from the offset it gets, and goes on from the high watermark of each response, on any connections. The messages it has received are at any time the records of the partition from that offset on, in order, without gap or repetition, labelled with their offsets. For the beginning the offset is 0, so it misses nothing; for the end it is between the numbers of records at the start and at the end of the request; for a time, if the timestamps do not decrease, it gets exactly the records of that time or later among those that were there. After every Fetch it has got all records from its offset on that were there when the Fetch was taken up.", "quantifier": "all runs of the mock, all times, all sequences of fetches, all concurrent activity, all records below 2 GiB", "why_tests_cant": "the sequences of posts, requests and other activity are unbounded", "anchors": ["list_offsets.go: listOffsetsV1", "fetch.go: fetchV2", "datastore.go: postRecord"]}
{"id": "C89", "title": "When Start or Restart has returned, clients can connect", "statement": "When Start or Restart has returned, the mock listens at its port and its accept loop takes connections, as long as nobody calls RequestStop: a client that connects then is not refused.", "quantifier": "all runs of the mock, all interleavings of the call with the goroutines it starts, all other callers", "why_tests_cant": "the listener is opened by another goroutine than the one that calls Start; a test on one machine sees mostly one of the two orders", "anchors": ["kafka-mock.go: Start", "kafka-mock.go: Restart", "kafka-mock.go: run"]}
{"id": "C90", "title": "A group is told what it committed", "statement": "An OffsetFetch request is answered with the offset and the metadata that the group committed last for the partition; if it has committed nothing, with offset -1 and no metadata.", "quantifier": "all runs of the mock, all groups, partitions, offsets and metadata, all concurrent activity", "why_tests_cant": "the histories of commits, resets and reads are unbounded, also on several connections at a time", "anchors": ["offset_fetch.go: offsetFetchV1", "offset_commit.go: offsetCommitV2", "datastore.go: groupCommittedOffset"]}
{"id": "C91", "title": "Fetch reports the end of the log, and offsets out of range", "statement": "A Fetch response carries for every partition the end of its log as high watermark. A requested offset that is negative or beyond the end of the log is reported with the error OFFSET_OUT_OF_RANGE.", "quantifier": "all runs of the mock, all logs, all requested offsets, all concurrent posts", "why_tests_cant": "offsets and logs are unbounded, and records are posted while the request waits", "anchors": ["fetch.go: fetchV2", "datastore.go: fetchRecord"]}
{"id": "C92", "title": "While nobody else changes the data, the answers are a function of the data", "statement": "While nobody else posts, commits, resets offsets or creates partitions, the answers to Fetch, ListOffsets, OffsetCommit and OffsetFetch are a function of the logs, the committed offsets and the request (and of the time, where ListOffsets reports it), and OffsetCommit changes the data as a function of the same; nothing else the mock has been through matters, whatever connections come and go and whatever else is asked meanwhile.", "quantifier": "all runs of the mock that lead to the request, all interleavings with activity that does not change the data, all requests and data", "why_tests_cant": "a test compares the answers after a few histories; the claim is that no history matters but through the data", "anchors": ["fetch.go: fetchV2", "list_offsets.go: listOffsetsV1", "offset_commit.go: offsetCommitV2", "offset_fetch.go: offsetFetchV1"]}
{"id": "C93", "title": "Used by one at a time, the mock is a sequential broker", "statement": "If requests (on any connections) and calls of SimplePost, ExtendedPost, CreatePartitionTopics and SetConsumerGroupOffset (by any goroutines) come one after the other, every answer and the data after each of them are those of a sequential machine with a log per partition and an offset per group, whatever else happens that does not change the data: clients connecting and disconnecting, time passing, stops and restarts.", "quantifier": "all sequences of requests and calls, of any length; all runs of the mock in which they come one after the other; all goroutine interleavings in between", "why_tests_cant": "a test runs a few sequences; the claim is about all sequences and all schedules of the goroutines that serve them", "anchors": ["fetch.go: fetchV2", "list_offsets.go: listOffsetsV1", "offset_commit.go: offsetCommitV2", "offset_fetch.go: offsetFetchV1", "sync_group.go: syncGroupV0", "kafka-mock.go: SimplePost", "kafka-mock.go: ExtendedPost", "kafka-mock.go: CreatePartitionTopics", "kafka-mock.go: SetConsumerGroupOffset", "datastore.go: postRecord"]}
{"id": "C94", "title": "What clients and tests do at the same time is linearizable", "statement": "Requests on any connections and calls of SimplePost, ExtendedPost, CreatePartitionTopics and SetConsumerGroupOffset by any goroutines, at the same time and in any interleaving, are linearizable with respect to the sequential broker of C93: there is an order of all of them in which each comes after those that were over before it began, and in which, done one after the other, they give the answers that the clients received and the data that the mock has at the end.", "quantifier": "all runs of the mock; all sets of operations that cover all changes of the data, overlapping in any way", "why_tests_cant": "linearizability is a statement about all interleavings; a test sees one, and has to search all orders to judge it", "anchors": ["fetch.go: fetchV2", "list_offsets.go: listOffsetsV1", "offset_commit.go: offsetCommitV2", "offset_fetch.go: offsetFetchV1", "kafka-mock.go: SimplePost", "kafka-mock.go: ExtendedPost", "kafka-mock.go: CreatePartitionTopics", "kafka-mock.go: SetConsumerGroupOffset", "datastore.go: createTopic", "datastore.go: createPartition", "datastore.go: postRecord"]}
{"id": "C95", "title": "Only members take part in a group", "statement": "A Heartbeat, SyncGroup, LeaveGroup or OffsetCommit of someone who has joined the group, with the member id and generation that JoinGroup gave them, is accepted; one of someone who has not joined, has left, or names an old generation is refused, and has no effect on the offsets of the group.", "quantifier": "all runs of the mock; all groups, generations and member ids; all requests before", "why_tests_cant": "the members are a matter of the whole history of requests on all connections; the test clients are well behaved and never ask as strangers", "anchors": ["heartbeat.go: heartbeatV0", "leave_group.go: leaveGroupV0", "sync_group.go: syncGroupV0", "offset_commit.go: offsetCommitV2", "join_group.go: joinGroupV1"]}
{"id": "C96", "title": "The answer to a Fetch is a snapshot of all its partitions", "statement": "There is one moment between the taking up of a Fetch request and its answer at which the messages given for each of its partitions are exactly the records of the partition from the requested offset on.", "quantifier": "all runs of the mock with any number of connections and callers; all Fetch requests with any number of topics; all partitions of the request at once", "why_tests_cant": "the moment exists because the loop of Fetch goes on until a whole round finds nothing new; whether an answer that mixes two moments is ever given is a matter of all interleavings of posts to several topics with the rounds of the loop", "anchors": ["fetch.go: fetchV2", "datastore.go: postRecord"]}
{"id": "C97", "title": "A Fetch never shows a later record without the earlier ones of other topics", "statement": "For any moment while a Fetch request is served: either the answer has, of every partition it names, all records that were there at this moment (from the requested offset on), or it has only records that were there at this moment. So if a record was posted after another had been posted, to another topic, then no answer that names both has the later one but lacks the earlier one.", "quantifier": "all runs of the mock; all Fetch requests; all moments while they are served; all partitions of the request at once", "why_tests_cant": "needs two posts to two topics between two rounds of the loop of one Fetch; a test cannot place them there, nor enumerate all places", "anchors": ["fetch.go: fetchV2", "kafka-mock.go: SimplePost", "datastore.go: postRecord"]}
{"id": "C98", "title": "What is read and posted one after the other is the story of one growing log", "statement": "For each partition: what one request after the other, on any connections, is told of it (its records from an offset on, by Fetch with one partition per topic; its end, by ListOffsets; that it does not exist), and the records posted to it in between, are right of one log that only grows. So the end never goes back; who fetches again from an offset gets the same records again, and perhaps more; who has been told the end gets every record up to it; and of two posts one after the other, whoever fetches gets the first before the second.", "quantifier": "all runs of the mock; any number of requests and posts one after the other, by any clients and callers, whatever else happens at the same time", "why_tests_cant": "the story may be arbitrarily long and is told by clients that know nothing of each other, with other posts and requests at the same time", "anchors": ["fetch.go: fetchV2", "list_offsets.go: listOffsetsV1", "kafka-mock.go: SimplePost", "datastore.go: postRecord"]}
{"id": "C99", "title": "Whoever reads a record of a log reads a record", "statement": "Every read of an element of a partition's log, by a Fetch or a ListOffsets at the same time as posts, reads the record that was posted at this offset: it does not panic, does not find a nil pointer in place of a record, and does not read memory outside of the log.", "quantifier": "any number of goroutines that post, fetch and list at the same time; all orders in which a compiler may store the words of the slice and the element, and load them; all ways in which the array of the log grows; all interleavings of the single loads and stores", "why_tests_cant": "the window is between two machine instructions, and depends on the compiler and on how the runtime grows slices", "anchors": ["datastore.go: postRecord", "fetch.go: fetchV2", "list_offsets.go: listOffsetsV1"]}
{"id": "C100", "title": "The maps of topics and partitions are never accessed while they are written", "statement": "Whatever requests and posts are made at the same time, Go's runtime does not end the process because a map is read, iterated or written while another goroutine writes to it; and a SyncGroup assigns every topic and partition that exists when it begins, once each, and none that does not exist when it ends.", "quantifier": "any number of goroutines that create and look up topics and partitions and iterate over them; all interleavings of the steps of the iterations with the others; all orders of iteration", "why_tests_cant": "the runtime notices a concurrent access only by chance; an iteration may meet or skip what is created meanwhile", "anchors": ["sync_group.go: makeMemberAssignment", "datastore.go: createTopic", "datastore.go: createPartition", "datastore.go: getTopic", "datastore.go: getPartition"]}
{"id": "C101", "title": "A member of a group gets what it asked for", "statement": "JoinGroup chooses a protocol that the member has offered, and SyncGroup assigns to a member only partitions of topics to which it subscribed when it joined.", "quantifier": "all runs of the mock, all groups, all offers and subscriptions of members, all topics of the store, all concurrent activity", "why_tests_cant": "tests use one protocol and one topic, to which the only member has subscribed", "anchors": ["join_group.go: joinGroupV1", "sync_group.go: makeMemberAssignment", "sync_group.go: syncGroupV0"]}
{"id": "C102", "title": "Every request that arrives is answered, and a record that was posted is delivered", "statement": "A well-formed request that arrives on a connection is taken up after exactly those that arrived before it, not before it has arrived, and is answered. In particular, once a post has returned, every Fetch request that arrives on any connection and asks for the partition from an offset not after that of the record is answered with a response that contains the record, with its offset, key, value and timestamp.", "quantifier": "all runs of the mock that go on for ever under a fair scheduler, all connections on which writes succeed, all requests and posts, all concurrent activity", "why_tests_cant": "a test sees that an answer has come in its own schedule; that it comes in every fair one cannot be observed", "anchors": ["kafka-client.go: handle", "kafka-client.go: dispatcher", "fetch.go: fetchV2", "datastore.go: postRecord"]}
{"id": "C103", "title": "Only requests are answered, and an answered message is one request", "statement": "For every byte string received as a message: either it begins with a message of a well-formed request of a supported API, in which only an absent string (an empty one, or a null client id or metadata) may have been given any negative length, and the mock does exactly what it does with the proper message of that request, followed by the same bytes; or it is rejected at once, before the mock has read or changed anything. If any byte is sent for the message, it is such a request message and nothing follows it. No byte string is a message of two different requests; and if no string of the request is empty or null, only its proper message is taken for it.", "quantifier": "all byte strings of every length, all states of the mock, all concurrent activity, all requests whose header and body each fit the 4096-byte read buffer", "why_tests_cant": "the input space is all byte strings; tests send a few malformed messages", "anchors": ["kafka-client.go: dispatcher", "decoder.go: peekObject", "decoder.go: peekNullableString", "decoder.go: peekObjectVarArray", "inbound-utils.go: readRequest"]}
{"id": "C104", "title": "The mock hangs up only when it has been told to finish", "statement": "The mock closes a connection only after the parent context was cancelled, or after FinishRequests, RequestStop, Restart or WaitForTermination has cancelled the context of the start that accepted the connection; nothing that clients send, and no start after that one, makes it hang up. When it closes the connection, every complete request it has read from it has been processed, and exactly one response with the request's correlation id was sent for each, in order. Until it is told to finish, and unless the client leaves, the connection is served.", "quantifier": "all runs of the mock: any number of clients, callers and restarts, every interleaving, every content of what clients send", "why_tests_cant": "a negative property of all interleavings of all lifecycle calls with all clients", "anchors": ["kafka-client.go: handle", "kafka-client.go: isDone", "kafka-mock.go: FinishRequests", "kafka-mock.go: RequestStop", "kafka-mock.go: Start"]}
{"id": "C105", "title": "A conversation is a sequence of exchanges", "statement": "Whenever a connection reads or is closed, what it has read is a sequence of messages, each of them accepted as a message of exactly one request, followed perhaps by an incomplete message; and what it has sent is the concatenation of the responses to these requests, one for each, in order, each written between the moment its request is taken up and the moment it is laid down, where nothing else is written. Hence what the properties of single requests say about responses holds of all bytes that any client ever receives, as long as no write fails.", "quantifier": "all runs of the mock, all connections, all byte streams in all pieces, at every read and at the close", "why_tests_cant": "all byte streams, all interleavings of requests on one connection with everything else", "anchors": ["kafka-client.go: handle", "kafka-client.go: dispatcher", "kafka-client.go: send"]}
{"id": "C106", "title": "What clients see at their ends of the connections", "statement": "The i-th response that a client receives on a connection answers the i-th request that it has sent: the mock took the request up after the client had sent all of it and wrote all of the response before the client received its last byte, in one exchange. Hence when one client has received a response before another has sent all of a request, the first exchange was over before the second began; and when a call of SimplePost or ExtendedPost has returned before a client has sent all of a Fetch request with one partition per topic, from an offset up to that of the record, the response that the client receives has the record at its place.", "quantifier": "all runs of the mock with its clients: any number of connections, bytes under way in both directions, every interleaving of sending, reading, processing, writing and receiving, in pieces of any size; responses below 4 GiB", "why_tests_cant": "all divisions of the streams into pieces in both directions, with any delay, together with all interleavings inside the mock", "anchors": ["kafka-client.go: handle", "kafka-message.go: Send", "inbound-utils.go: getMessage", "kafka-mock.go: SimplePost"]}
{"id": "C107", "title": "What clients and tests see is linearizable partition by partition", "statement": "Take a run of the mock with its clients in which every request that the mock has taken up has been answered and the response received, and every posting call has returned. Let an operation last, for a client, from any moment before it has sent all of the request to the moment when it has received all of the response, and for a test from the call to the return. Requests may be pipelined. Then there is an order of the parts of all operations such that no part comes after a part of an operation that began after its own operation was over, and the parts, done one after the other by the sequential broker of C93 at times within their operations, give the responses that the clients have received and the data that the mock has at the end. A part is a Fetch that names no partition that is created and written to meanwhile, else what a request says about one partition; a post is one part, or two if it creates its partition; a call of CreatePartitionTopics has a part for each topic.", "quantifier": "all runs of the mock with any number of clients and callers, all ways in which sending, receiving, reading and writing are cut into pieces and interleaved; requests other than SyncGroup, and Fetch with one partition per topic or without a partition that is created and written to meanwhile", "why_tests_cant": "a test sees one interleaving, and cannot see when the mock takes up a request", "anchors": ["kafka-client.go: handle", "kafka-message.go: Send", "fetch.go: fetchV2", "list_offsets.go: listOffsetsV1", "offset_commit.go: offsetCommitV2", "offset_fetch.go: offsetFetchV1", "kafka-mock.go: SimplePost"]}
{"id": "C108", "title": "A client that sends a request receives the response; posted records reach every client that asks", "statement": "Take an endless run of the mock with its clients, under a fair scheduler, in which the process does not come to its end. Let a connection work: it is accepted, the mock is not told to stop, the client does not hang up, no write fails, and the network delivers what waits. Let every Fetch on it have room for the records it asks for (without room the mock may look for records forever, see C70), and every response be below 4 GiB. Then whatever message the client has sent as its i-th, it receives an i-th response, and this response is the one given in an exchange for that message. If a call of SimplePost or ExtendedPost has returned, every client on such a connection that sends all of a Fetch request after that, with one partition per topic and from an offset up to that of the record, receives the record at its place.", "quantifier": "all endless runs with a fair scheduler, any number of clients and callers, all ways in which sending, receiving, reading and writing are cut into pieces and interleaved, all messages, also pipelined", "why_tests_cant": "liveness: a test that waits for a response does not show that it comes under every schedule", "anchors": ["kafka-client.go: handle", "kafka-client.go: getMessage", "kafka-message.go: Send", "fetch.go: fetchV2", "kafka-mock.go: SimplePost", "kafka-mock.go: ExtendedPost"]}
{"id": "C109", "title": "A consumer that polls gets every record exactly once and in order, at its own end of its connections", "statement": "A consumer reads a partition: it begins at some offset that is not negative and sends Fetch requests, over any connections, each from the offset after the last message it has received so far. Then the messages in the responses it has received, put one after the other, are the records of the partition from its first offset on: in order, none missing, none twice, unaltered, and labelled with their offsets. In an endless run under a fair scheduler, with a connection as in C108 on which the consumer goes on sending such requests for ever, every Fetch is answered, and once a call of SimplePost or ExtendedPost for the partition has returned, the record is among the messages the consumer receives, with as many messages before it as there are offsets from the first one up to its own.", "quantifier": "all runs, any number of clients and callers posting at the same time, all ways in which sending, receiving, reading and writing are cut into pieces and interleaved, any maximal sizes and waiting times in the requests, other topics asked for in the same requests", "why_tests_cant": "exactly-once delivery under all interleavings of posts and polls and all cuts of the byte streams, and liveness", "anchors": ["fetch.go: fetchV2", "kafka-client.go: handle", "kafka-mock.go: SimplePost", "kafka-mock.go: ExtendedPost"]}
{"id": "C110", "title": "No record and no committed offset comes from nowhere", "statement": "Every record that a client receives was posted: there is one assignment of calls of SimplePost and ExtendedPost to the offsets of a partition, in which no call is assigned to two offsets, such that every message any client has received has the key, the value and the timestamp that the call at the message's offset asked for (a timestamp of its own time where the call gave none). Every offset that a client reads in an OffsetFetch response is 0, or, before the response, some client had sent it in an OffsetCommit request of that group for that partition, or some test had called SetConsumerGroupOffset with it; and it is negative only if a test had called SetConsumerGroupOffset with a negative offset.", "quantifier": "all runs with any number of clients and callers, all bytes that clients send, all ways in which sending, receiving, reading and writing are cut into pieces and interleaved", "why_tests_cant": "every reachable state, all interleavings, all byte streams", "anchors": ["kafka-mock.go: SimplePost", "kafka-mock.go: ExtendedPost", "kafka-mock.go: SetConsumerGroupOffset", "offset_commit.go: offsetCommitV2", "offset_fetch.go: offsetFetchV1", "fetch.go: fetchV2", "kafka-client.go: handle"]}
{"id": "C111", "title": "A consumer group receives every record at least once, whichever members stop", "statement": "Any number of members of a consumer group work at the same time, each over its own connections. A member asks for the committed offset with OffsetFetch, begins at the offset it reads in the response, and sends Fetch requests, each from the offset after the last message it has received. Members may stop at any time, with requests and commits under way. If no OffsetCommit request of the group (by whichever client) has an offset above the place that some member had reached when it was sent, and no test sets the group's offset, then no record is passed over: all records before the place of any member, and all records before the committed offset, have been received unaltered by members of the group; and neither is ever beyond the end of the partition.", "quantifier": "all runs, any number of members, clients and callers, all moments at which members stop, all ways in which sending, receiving, reading and writing are cut into pieces and interleaved", "why_tests_cant": "crashes at any moment, with any interleaving of commits under way", "anchors": ["offset_commit.go: offsetCommitV2", "offset_fetch.go: offsetFetchV1", "fetch.go: fetchV2", "kafka-client.go: handle"]}
{"id": "C112", "title": "Used one at a time, the mock is the sequential broker at the clients' own ends", "statement": "Clients and tests use the mock one at a time: from the moment when a client has sent all of a request until it has received all of the response, and from the moment when a test calls SimplePost, ExtendedPost, CreatePartitionTopics or SetConsumerGroupOffset until that call is about to return, no other client completes a request and no other such function is called. Then what the clients read in the responses, and the data that the mock has at the end, are those of the sequential broker: a store of logs and committed offsets in which each request and each call, in the order in which they were made, is one step. Nothing about the inside of the mock is assumed: that it has finished the work for a request when the response has arrived is part of what is proved.", "quantifier": "all runs with any number of clients and callers, all bytes that clients send, all ways in which sending, receiving, reading and writing are cut into pieces and interleaved", "why_tests_cant": "all sequences of requests and calls of any length, all ways in which bytes travel", "anchors": ["kafka-client.go: handle", "kafka-mock.go: SimplePost", "kafka-mock.go: ExtendedPost", "kafka-mock.go: CreatePartitionTopics", "kafka-mock.go: SetConsumerGroupOffset", "fetch.go: fetchV2", "offset_commit.go: offsetCommitV2", "offset_fetch.go: offsetFetchV1", "list_offsets.go: listOffsetsV1"]}
{"id": "C113", "title": "A consumer group whose members take turns receives every record exactly once, across crashes, at the members' own ends", "statement": "When a client has received the response to an OffsetCommit request without error for a partition, every OffsetFetch request of the same group for that partition that any client completes after that is answered with an entry for it and an offset of at least the committed one, as long as no test sets the group's offset; it is exactly that offset if no larger one has been sent. Hence the members of a group may take turns: one reads the committed offset, fetches from there, commits the offset it has got to, and receives the response; another (or itself, after a crash) then reads the committed offset, and fetches from there. If nobody has sent a commit of a larger offset meanwhile, the messages that the members received up to their acknowledged commits, put one after the other, are the records of the partition from the group's first offset on: in order, none missing, none twice, unaltered, labelled with their offsets. Fetches of members that stopped before they committed what they received are left out.", "quantifier": "all runs with any number of clients and callers, any number of turns, all ways in which sending, receiving, reading and writing are cut into pieces and interleaved", "why_tests_cant": "any number of turns and crashes at any moment, all interleavings", "anchors": ["offset_commit.go: offsetCommitV2", "offset_fetch.go: offsetFetchV1", "fetch.go: fetchV2", "kafka-client.go: handle"]}
{"id": "C114", "title": "The size of a response is bounded by the request and the data, and modest data never comes near the limits of the wire format", "statement": "The response to a request is never larger than a bound that can be read off the request and the data of the mock: for Heartbeat, LeaveGroup, FindCoordinator and JoinGroup a constant; for ApiVersions six bytes per API; for Metadata, ListOffsets, OffsetCommit and OffsetFetch a small multiple of the size of the request; for SyncGroup the topics and partitions of the mock; for Fetch twice the size of the request and, for each partition named, the largest of those partitions - or the largest of the limits (max_bytes) that the request gives. Hence, if every partition has less than 16 MiB of records and the names of the topics fit, no response ever reaches 4 GiB, and what a client receives is complete and never misread: C106 and C109 to C113 hold with no other condition on sizes.", "quantifier": "all requests of every type, all contents of the mock, all interleavings with other clients and tests while the request is handled", "why_tests_cant": "all requests, all contents and all interleavings; size fields overflow only for data that no test has", "anchors": ["kafka-client.go: handle", "kafka-message.go: send", "fetch.go: fetchV2", "metadata.go: metadataV1", "sync_group.go: syncGroupV0"]}
{"id": "C115", "title": "A client that sees the mock close its connection knows what has been done", "statement": "Let a client have come to the end of what the mock sends on its connection: the mock has closed it, and the client has received all that was under way (it sees the end of the stream, not an error). Then it has received complete responses and nothing else. Their number is the number of requests that the mock has ever taken up on the connection, and these are the first ones that the client has sent. Every change that the mock has made to its data for this connection was made while it served one of these requests. So a request that has got no response has changed nothing and never will, and the client may send it again on another connection. The mock had been told to finish before it closed the connection (FinishRequests, RequestStop, Restart, WaitForTermination, or the parent context).", "quantifier": "all runs of the mock with any number of clients, callers and restarts, all ways in which sending, receiving, reading and writing are cut into pieces and interleaved, also pipelined requests and requests sent in part", "why_tests_cant": "a negative property of all interleavings of a shutdown with all clients", "anchors": ["kafka-client.go: handle", "kafka-client.go: isDone", "kafka-client.go: getMessage", "kafka-mock.go: FinishRequests", "kafka-mock.go: RequestStop"]}
{"id": "C116", "title": "The same test gets the same answers", "statement": "Let two new mocks be used by one client or test at a time, with the same requests and calls in the same order. The runs can differ in everything else: the time at which they begin and the speed of the clock, the port, the connections and callers, how messages are cut into pieces, the order in which goroutines make their steps, the order of Go's maps, whatever happens in between that does not use the data, the correlation ids. Then the clients read the same in the responses to Fetch, ListOffsets, OffsetCommit, OffsetFetch and SyncGroup, and in the end the mocks have the same data, except for the times of records that SimplePost posts, what depends on these times (the offsets for a time), the time that ListOffsets gives with the offset of the end, the order of topics in the response to OffsetFetch, the order in the assignment of SyncGroup, and the order of headers. Without SimplePost the times of records and the offsets for a time are equal as well. If the ports and the correlation ids are the same, the responses to Metadata, FindCoordinator, JoinGroup, Heartbeat and LeaveGroup are the same bytes.", "quantifier": "all pairs of runs of mocks that are used by one client or test at a time with the same requests and calls", "why_tests_cant": "a relation between all pairs of runs; a test sees one run, and running it again does not vary the schedule, the clock and the order of maps in all ways", "anchors": ["fetch.go", "list_offsets.go", "offset_commit.go", "offset_fetch.go", "sync_group.go", "datastore.go", "kafka-mock.go: SimplePost", "kafka-mock.go: ExtendedPost"]}
{"id": "C117", "title": "Managed by one goroutine, the mock goes up and down as it is told", "statement": "Let one goroutine make all the calls of Start, RequestStop, WaitForTermination, Restart and FinishRequests, while clients, posters and the goroutines of the mock run as they like under a fair scheduler. Then the mock is always in one of four modes (new, up, stopping, down) and every call does what a table says. Start brings a mock that is not up to up, and panics in a mock that is up; in one that is stopping it does one or the other. RequestStop returns and makes a mock that is up stopping, and changes nothing otherwise. WaitForTermination returns at once in a new mock, never in one that is up, and otherwise returns with the mock down: every goroutine of it has let go. Restart returns with the mock up, from every mode. FinishRequests returns and changes nothing, and panics in a new mock. Between the calls the mode stays. A mock that is up and is left alone opens its listener and then accepts connections for ever. A mock that was told to stop and is left alone is down after some time, and its connections have ended.", "quantifier": "all endless runs with a fair scheduler in which one goroutine manages the mock, all sequences of its calls, all behaviours of clients and posters", "why_tests_cant": "all sequences of calls of any length, with everything else that goes on at the same time, and statements about what never and what always comes about", "anchors": ["kafka-mock.go: Start", "kafka-mock.go: RequestStop", "kafka-mock.go: WaitForTermination", "kafka-mock.go: Restart", "kafka-mock.go: FinishRequests"]}
{"id": "C118", "title": "A test that stops the mock when its clients have what they asked for comes to its end", "statement": "Let one goroutine of a test start the mock and stop it (FinishRequests, RequestStop, WaitForTermination, Restart) only when each of its clients has received the number of responses it wants, and then stop it: RequestStop, and next WaitForTermination. Every client connects at some time, sends at least as many messages as it wants responses, and does not hang up before it has them; the network delivers until then. Fetch requests have limits with room for the records of their partitions, the data is modest, and the scheduler is fair. Beside that goroutines post, create topics and set offsets, and other clients come and go as they like. Then every client receives its responses; the i-th response answers its i-th message, in an exchange that began after all of the message had been sent; a record that was posted before a Fetch was sent is in the response at its place; RequestStop returns; WaitForTermination returns; and then every accept loop has ended and every handler has signed off.", "quantifier": "all tests of this form, any number of clients and responses, all endless runs with a fair scheduler", "why_tests_cant": "that tests do not hang is a statement about all schedules and all runs; a test that passes has seen one", "anchors": ["kafka-mock.go: Start", "kafka-mock.go: RequestStop", "kafka-mock.go: WaitForTermination", "kafka-client.go", "fetch.go", "kafka-mock.go: SimplePost", "kafka-mock.go: ExtendedPost"]}
{"id": "C119", "title": "Clients that connect are served, each by a connection of its own and in their order, unless the mock was told to finish", "statement": "Each connection that the mock serves is that of one client that connected, and each client is served by one connection at most. Of two clients of the same listener, the one that connected first is served first, and while it waits the other is not served. A client's connection is closed without being served only if RequestStop has closed the listener or the accept loop has been told to finish. With a fair scheduler every client that connects is served or its connection is closed; so if the listener is never closed and the loop never told to finish, it is served. A test whose clients connect, and that stops the mock only when they have their responses, therefore is a test of C118: every client is served and gets its responses, and the test comes to its end.", "quantifier": "all runs of the mock with any number of clients that connect at any time; all endless runs with a fair scheduler", "why_tests_cant": "a test sees a few clients in a few orders and cannot tell a late connection from one that is never accepted", "anchors": ["kafka-mock.go: run", "kafka-mock.go: Start", "kafka-mock.go: RequestStop"]}
{"id": "C120", "title": "Clients that commit nothing make no difference to the others", "statement": "Whatever happens in a run of the mock with some clients that send no OffsetCommit request, but fetch, ask for offsets, versions, topics or groups, join and leave, or send bytes that are no requests, can happen when these clients say nothing: there is a run in which they connect, send and receive nothing, and everything else happens as before, in the same order. All other clients send and receive the same bytes, the same test calls are made, and at the end there are the same records, the same committed offsets and the same time. Of a client that sends an OffsetCommit request this is not true.", "quantifier": "all runs of the mock, all sets of clients that have sent no OffsetCommit request", "why_tests_cant": "a test cannot compare a run with one that differs only in what some clients say, with every interleaving", "anchors": ["kafka-client.go: handle", "offset_fetch.go", "fetch.go", "list_offsets.go", "offset_commit.go", "datastore.go"]}
{"id": "C121", "title": "A client that does not read delays no other, but WaitForTermination waits for it", "statement": "The mock writes responses without a deadline, so the goroutine of a connection whose client does not read is stuck as soon as the connection has no room. Whatever room the connections have and whatever is left unread: with a fair scheduler, every request of a client that reads is answered, every record posted reaches every client that reads and goes on asking, and RequestStop returns. If every client reads, or its connection fails, nothing is different from a mock whose writes never wait. WaitForTermination, though, may not return: whatever room a connection has, a client that sends small requests and reads nothing makes it wait for ever after RequestStop has returned.", "quantifier": "all endless fair runs of the mock, any room of each connection, any clients", "why_tests_cant": "that something never returns cannot be observed; buffers of real connections are large and differ", "anchors": ["kafka-message.go: send", "kafka-client.go: handle", "kafka-mock.go: RequestStop, WaitForTermination"]}
{"id": "C122", "title": "A Fetch that waits notices a new record at its next look", "statement": "A Fetch that waits for records looks again every 20 ms. From the moment on at which a partition it names holds a record at or after the requested offset, it sleeps at most once more, wherever it was at that moment, whatever its maximum wait time. When it does sleep once more and then answers, the answer contains every record that was there at that moment.", "quantifier": "all Fetch requests, all runs, all moments of a run, all interleavings with other goroutines", "why_tests_cant": "depends on the moment of the post relative to the steps of the polling loop; tests only observe some delays", "anchors": ["fetch.go: fetchV2", "datastore.go: postRecord"]}
{"id": "C123", "title": "Answering a request takes a bounded number of actions, and only Fetch waits", "statement": "The mock answers every request other than Fetch with a number of actions (on the data, the clock and the connection) that is bounded by the request and by the data there are when it is answered, whatever other clients and the test do meanwhile: three for Metadata, FindCoordinator, JoinGroup, Heartbeat and LeaveGroup, four for ApiVersions, and otherwise a number that grows with the topics and partitions named, with the records of the partitions asked about (ListOffsets), or with the topics of the mock (SyncGroup). It never sleeps while doing so. For a Fetch whose records fit its limits the number of actions is bounded in the same way, with one more round for every 20 ms of its maximum wait time.", "quantifier": "all requests, all contents of the store, all interleavings with other goroutines", "why_tests_cant": "a bound over all requests and all contents; a test observes durations of some requests", "anchors": ["offset_commit.go: offsetCommitV2", "offset_fetch.go: offsetFetchV1", "list_offsets.go: listOffsetsV1", "sync_group.go: makeMemberAssignment", "fetch.go: fetchV2"]}
{"id": "C124", "title": "In a small test every client gets all it asks for", "statement": "If no partition ever has more than B bytes of records (B up to 4 MiB) and the names of the topics take less than 1 GiB, and if the Fetch requests of a client allow at least B bytes for each partition, then, whatever the other clients and the test do and however the goroutines interleave: a client whose connection is kept receives a response to every request it sends, in order; a consumer that polls a partition from an offset on receives, in its first k responses, for every k, the records of the partition from there on, each once, in order and labelled with its offset; and once SimplePost or ExtendedPost has returned, every consumer that polls the partition receives the record, at its place.", "quantifier": "all runs without end, all numbers of clients and posts, all requests, all interleavings", "why_tests_cant": "liveness over infinite runs", "anchors": ["kafka-client.go: dispatcher", "fetch.go: fetchV2", "kafka-mock.go: ExtendedPost"]}
{"id": "C125", "title": "A member of a group receives every record", "statement": "A member of a consumer group that asks for its assignment with SyncGroup and then polls every partition that it has been assigned receives every record that is posted, at its place and once (from the offset on at which it begins with the partition). When topics or partitions are created later, the member is told at its next Heartbeat to join again, so that it learns of them.", "quantifier": "all runs without end in which the data is small (C124), all members, all numbers of clients and posts, all interleavings", "why_tests_cant": "liveness over infinite runs, and the moment at which a topic is created relative to SyncGroup", "anchors": ["sync_group.go: makeMemberAssignment", "heartbeat.go: heartbeatV0", "fetch.go: fetchV2", "kafka-mock.go: ExtendedPost"]}
{"id": "C126", "title": "Offsets found by timestamp never go backwards", "statement": "When a ListOffsets request has been answered and another one, from whichever client, is answered later, then for every partition that both name: if the first was told an offset (error code 0), so is the second; and if the second names the same or a later timestamp (-2, the earliest, counting as before, and -1, the latest, as after all others), the offset it is told is at least that of the first. This holds for logs whose timestamps are not in order too, and whatever is posted meanwhile.", "quantifier": "all pairs of exchanges, all logs of fewer than 2^63 records, all timestamps, all interleavings", "why_tests_cant": "all logs, all pairs of timestamps, all interleavings", "anchors": ["list_offsets.go: listOffsetsV1"]}
{"id": "C127", "title": "Nobody is told that a partition does not exist after it has been created or seen", "statement": "When a response has shown a client that a partition exists (OffsetCommit or ListOffsets without error, an offset in an OffsetFetch response, the partition in a SyncGroup assignment, a message in a Fetch response), or SimplePost, ExtendedPost or CreatePartitionTopics for it has returned, then no request taken up later, of any client, is answered with error UNKNOWN_TOPIC_OR_PARTITION, without its offset, or with an assignment without it. And a partition is shown to exist only if the test has called one of these three functions for it before: no client creates partitions, whatever it sends.", "quantifier": "all pairs of requests of all clients in all runs, all interleavings", "why_tests_cant": "all interleavings of requests and calls; arbitrary bytes from clients", "anchors": ["datastore.go: createPartition", "offset_commit.go: offsetCommitV2", "list_offsets.go: listOffsetsV1", "offset_fetch.go: offsetFetchV1", "sync_group.go: makeMemberAssignment", "fetch.go: fetchV2", "kafka-mock.go: CreatePartitionTopics"]}
{"id": "C128", "title": "SetConsumerGroupOffset sends a group back, whatever it has committed, unless a commit is under way", "statement": "When SetConsumerGroupOffset has returned for a partition that exists, every OffsetFetch request of the group that a client completes afterwards is answered, if it asks for the partition, with exactly the given offset, also when the group had committed a larger one; and a member that fetches from there receives the records from that offset on again, in order and none left out. This holds when the clients had received the responses to all OffsetCommit requests of the group with larger offsets before the call, and no other call sets another offset. A commit sent before the call but not yet answered can undo it: a later OffsetFetch is answered with the committed offset.", "quantifier": "all runs of any number of clients and callers, all interleavings, all offsets", "why_tests_cant": "all interleavings of the call with requests; one test of the repository sets an offset back with a single client at rest", "anchors": ["kafka-mock.go: SetConsumerGroupOffset", "offset_commit.go: offsetCommitV2", "offset_fetch.go: offsetFetchV1"]}
{"id": "C129", "title": "The end of the log is the number of posts", "statement": "A ListOffsets request for the end of the log of a partition is answered with the number of a set of calls of SimplePost and ExtendedPost for it: all of them were made before the client received the response, and all that had returned before it completed the request are among them. So when all posts to the partition that are ever called had returned before, the answer is exactly their number, however many goroutines posted at the same time; none is lost and none is counted twice. And the records of a partition correspond one to one to such calls, with their keys, values, headers and timestamps.", "quantifier": "all runs of any number of clients and callers, all interleavings", "why_tests_cant": "all interleavings of concurrent posts and requests; the tests of the repository post from one goroutine", "anchors": ["kafka-mock.go: SimplePost", "kafka-mock.go: ExtendedPost", "datastore.go: postRecord", "list_offsets.go: listOffsetsV1"]}
{"id": "C130", "title": "A group is set back only by SetConsumerGroupOffset", "statement": "When a client has been told a committed offset of a group by OffsetFetch, or has been told that its OffsetCommit succeeded, no client that asks later is told a smaller offset for that partition, or none at all, unless a test calls SetConsumerGroupOffset with a smaller offset in between or has such a call under way when the first request is sent.", "quantifier": "all runs of any number of clients and callers, all interleavings", "why_tests_cant": "all interleavings of requests of different clients, commits in any order, and calls", "anchors": ["offset_commit.go: offsetCommitV2", "offset_fetch.go: offsetFetchV1", "kafka-mock.go: SetConsumerGroupOffset"]}
{"id": "C131", "title": "Every post is received exactly once, and in order", "statement": "A consumer that polls a partition from offset 0 (each fetch begins where the previous one ended, on whichever connections) receives at most one message from each call of SimplePost or ExtendedPost for the partition and no other messages, each with the key, value and timestamp of its call, and it has received one from every call that had returned before its last request was complete; when all calls had returned by then, exactly one from each. The message of a call that had returned before another call was made comes before the message of that one. The same holds of the messages that the members of a consumer group receive together when they take turns, each beginning at the offset the previous one committed.", "quantifier": "all runs of any number of clients and callers, all interleavings, all ways of polling", "why_tests_cant": "all interleavings of posts by several goroutines with fetches, responses of any size, any number of polls and members", "anchors": ["kafka-mock.go: SimplePost", "kafka-mock.go: ExtendedPost", "datastore.go: postRecord", "fetch.go: fetchV2"]}
{"id": "C132", "title": "No post is lost to a consumer group, whichever of its members stop", "statement": "The members of a consumer group work at the same time on one partition, each may stop at any point with requests under way, and no offset is committed that no member has got to. When a member has received the response to a Fetch that it sent at the place where it is, some member has received a message from every call of SimplePost or ExtendedPost for the partition that had returned before that request was complete, with the key, value and timestamp of the call, and messages of different calls have different offsets.", "quantifier": "all runs of any number of members, clients and callers, all interleavings", "why_tests_cant": "all interleavings of members that fetch, commit and stop with posts by several goroutines", "anchors": ["kafka-mock.go: SimplePost", "kafka-mock.go: ExtendedPost", "offset_commit.go: offsetCommitV2", "offset_fetch.go: offsetFetchV1", "fetch.go: fetchV2"]}
{"id": "C133", "title": "A consumer that begins at the end of the log receives what is posted from then on", "statement": "A consumer that asks for the latest offset of a partition with ListOffsets and polls from the offset in the response receives at most one message from each call of SimplePost or ExtendedPost for the partition and no other messages: none from calls that had returned before it sent the ListOffsets request, and one from every call that was made after it had received the response and had returned before its last Fetch request was complete. The message of a call that had returned before another call was made comes before the message of that one.", "quantifier": "all runs of any number of clients and callers, all interleavings, all ways of polling", "why_tests_cant": "all interleavings of posts by several goroutines with the ListOffsets request and the fetches", "anchors": ["list_offsets.go: listOffsetsV1", "fetch.go: fetchV2", "kafka-mock.go: SimplePost", "kafka-mock.go: ExtendedPost"]}
{"id": "C134", "title": "All consumers of a partition receive the same messages in the same order", "statement": "Consumers poll a partition, each from the offset where it began, at its own pace and on whichever connections. Wherever two of them (or one, when it polls twice) have received messages with the same offset, the messages have the same key, value and timestamp. Of two that began at the same offset, the one that has received less has received what the other one received first, in the same order.", "quantifier": "all runs of any number of clients and callers, all interleavings, all ways of polling", "why_tests_cant": "all interleavings of posts with the fetches of several consumers, responses of any size", "anchors": ["fetch.go: fetchV2", "datastore.go: postRecord"]}
{"id": "C135", "title": "A consumer that begins at the offset of a time receives what was posted at that time or later", "statement": "A consumer asks ListOffsets for the offset of a time T (not -1 or -2) of a partition and polls from the offset in the response. It receives at most one message from each call of SimplePost or ExtendedPost for the partition and no other messages: one from every call that stamped its record with T or later (SimplePost called at T or later, ExtendedPost with such a timestamp) and had returned before its last Fetch request was complete. A message of a time before T is from a call that had not returned when the ListOffsets request was sent.", "quantifier": "all runs of any number of clients and callers, all times, all interleavings, all ways of polling", "why_tests_cant": "all logs and times, all interleavings of posts by several goroutines with the ListOffsets request and the fetches", "anchors": ["list_offsets.go: listOffsetsV1", "fetch.go: fetchV2", "kafka-mock.go: SimplePost", "kafka-mock.go: ExtendedPost"]}
{"id": "C136", "title": "In a small test a consumer that goes on polling receives every post exactly once, and then nothing more", "statement": "In a small test (C124), a consumer whose connection is kept polls a partition from offset 0 for ever. For every moment there is a number of polls from which on the messages it has received come from distinct calls of SimplePost and ExtendedPost for the partition, one from each, with key, value and timestamp of the call, and all calls that had returned at that moment are among them; the message of a call that had returned before another call was made comes first. If finitely many such calls are ever made and all return, there is a number of polls in which the consumer receives exactly one message from each, and every later poll is empty.", "quantifier": "all endless fair runs, any number of other clients and callers, all interleavings", "why_tests_cant": "endless runs, all interleavings of posts by several goroutines with the fetches", "anchors": ["fetch.go: fetchV2", "kafka-mock.go: SimplePost", "kafka-mock.go: ExtendedPost", "datastore.go: postRecord"]}
{"id": "C137", "title": "The functions with which a test works on the data return", "statement": "A call of SimplePost, ExtendedPost, CreatePartitionTopics or SetConsumerGroupOffset does not panic and returns after a bounded number of its own actions on the data: 5 for SimplePost and ExtendedPost, 2n + 1 for CreatePartitionTopics with n topics, 4 for SetConsumerGroupOffset (the return counted). This holds whatever the other goroutines do, and whether or not the mock is running. If the scheduler is fair to the caller, the call returns.", "quantifier": "all arguments, all states in which the call is made, all interleavings with any number of clients and callers", "why_tests_cant": "all interleavings; a test cannot tell a slow call from one that never returns", "anchors": ["kafka-mock.go: SimplePost", "kafka-mock.go: ExtendedPost", "kafka-mock.go: CreatePartitionTopics", "kafka-mock.go: SetConsumerGroupOffset"]}
{"id": "C138", "title": "Nobody waits for a mutex of the data for ever", "statement": "The functions of the store lock the mutex of the store, of a topic or of a partition, access maps and slices one by one, and unlock it. If the scheduler is fair to the goroutines that have something to do and do not wait, every one of these mutexes is free again and again, and every goroutine that goes on having something to do on the data gets on with it: its actions on the data take effect again and again. What clients and callers can see happen is what can happen when each access to the data is one action, and what holds of the mock under a fair scheduler when each access to the data is taken as one action (requests are answered, consumers receive what was posted, calls return) holds of the mock with its mutexes. In particular calls of SimplePost, ExtendedPost, CreatePartitionTopics and SetConsumerGroupOffset return, and the caller then holds none of these mutexes.", "quantifier": "all endless runs of any number of clients and callers under a fair scheduler, all interleavings of single accesses to memory and mutexes", "why_tests_cant": "endless runs, all interleavings of single accesses; a test cannot tell a slow call from one that waits for ever", "anchors": ["datastore.go: postRecord", "datastore.go: createTopic", "datastore.go: getPartition", "offset_commit.go: offsetCommitV2", "kafka-mock.go: SetConsumerGroupOffset"]}
{"id": "C139", "title": "The mutexes of the data rule nothing out", "statement": "Whatever can happen when each function on the data (creating or looking up a topic or partition, posting, committing, reading) is one indivisible step can happen in the mock with its mutexes, where these functions are sequences of single accesses between Lock and Unlock: the same calls, requests, responses and results in the same order, with the same data at the end and no mutex locked. With C63, callers and clients cannot tell the two apart. This also holds of endless runs: one under a fair scheduler is possible with mutexes, under a scheduler that is fair to goroutines that do not wait for a mutex.", "quantifier": "all runs and all endless fair runs of any number of clients and callers, all interleavings", "why_tests_cant": "all interleavings of goroutines, endless runs", "anchors": ["datastore.go: createTopic", "datastore.go: postRecord", "fetch.go: fetchV2"]}
