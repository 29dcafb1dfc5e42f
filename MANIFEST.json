{
 "claims": [
  {
   "property": "C01",
   "status": "proved",
   "theorems": [
    "KM.Props.C01_round_trip",
    "KM.Props.C01_sharp",
    "KM.Props.C01_arrays"
   ],
   "note": "All in-sync types (Ty.InSync), any nesting, any context inside the 4096-byte window. Ty.InSync is exactly the domain: of every other type some value is not written, or what is written is not read back as this value."
  },
  {
   "property": "C02",
   "status": "proved",
   "theorems": [
    "KM.Props.C02_truncation"
   ],
   "note": ""
  },
  {
   "property": "C03",
   "status": "proved",
   "theorems": [
    "KM.Props.C03_bounded_local",
    "KM.Props.C03_panic_stable",
    "KM.Props.C03_tags_bounded_local"
   ],
   "note": ""
  },
  {
   "property": "C04",
   "status": "proved",
   "theorems": [
    "KM.Props.C04_varuint32",
    "KM.Props.C04_varuint64",
    "KM.Props.C04_varint32",
    "KM.Props.C04_varint64"
   ],
   "note": ""
  },
  {
   "property": "C05",
   "status": "proved",
   "theorems": [
    "KM.Props.C05_write_big_endian",
    "KM.Props.C05_read_big_endian"
   ],
   "note": ""
  },
  {
   "property": "C06",
   "status": "proved",
   "theorems": [
    "KM.Props.C06_null_vs_empty",
    "KM.Props.C06_plain_string_reads_null_as_empty"
   ],
   "note": ""
  },
  {
   "property": "C07",
   "status": "partial",
   "theorems": [
    "KM.Props.C07_partial",
    "KM.Props.C07_transportable_iff",
    "KM.Props.C07_length_prefix_iff",
    "KM.Props.C07_false"
   ],
   "note": "False of the code for long strings; the exact extent is proved (iff) and the negation by witness."
  },
  {
   "property": "C08",
   "status": "partial",
   "theorems": [
    "KM.Props.C08_partial",
    "KM.Props.C08_false",
    "KM.Props.C08_false_string",
    "KM.Props.C08_false_pointer"
   ],
   "note": "False of the code for annotated integers and strings (decoder ignores the annotation) and for annotated pointers to strings (the encoder fails); true for slices and byte slices."
  },
  {
   "property": "C09",
   "status": "partial",
   "theorems": [
    "KM.Props.C09_partial",
    "KM.Props.C09_null_array_in_struct_panics"
   ],
   "note": "False of the code inside structs: the decoder panics on every null array field. True at top level."
  },
  {
   "property": "C10",
   "status": "partial",
   "theorems": [
    "KM.Props.C10_tags_order_independent",
    "KM.Props.C10_tags_round_trip_partial",
    "KM.Props.C10_false"
   ],
   "note": "The bytes: for every map. Reading back: for the tag numbers that Kafka has, those of 32 bits, in the 4096-byte window. False of others: the number 2^32 is written and read back as 0 (witness)."
  },
  {
   "property": "C11",
   "status": "proved",
   "theorems": [
    "KM.Props.C11_framing",
    "KM.Props.C11_chunk_independent",
    "KM.Props.C11_mock"
   ],
   "note": "At every moment of every interleaved run; the server may stop early (crash) on a request it rejects, see C17."
  },
  {
   "property": "C12",
   "status": "proved",
   "theorems": [
    "KM.Props.C12_only_when_complete",
    "KM.Props.C12_no_further_input",
    "KM.Props.C12_mock"
   ],
   "note": ""
  },
  {
   "property": "C13",
   "status": "proved",
   "theorems": [
    "KM.Props.C13_response",
    "KM.Props.C13_split"
   ],
   "note": ""
  },
  {
   "property": "C14",
   "status": "proved",
   "theorems": [
    "KM.Props.C14_in_order",
    "KM.Props.C14_all_answered",
    "KM.Props.C14_mock"
   ],
   "note": "While the process has not crashed and no write has failed."
  },
  {
   "property": "C19",
   "status": "proved",
   "theorems": [
    "KM.Props.C19_create_keeps_everything",
    "KM.Props.C19_create_idempotent",
    "KM.Props.C19_post_keeps_everything"
   ],
   "note": ""
  },
  {
   "property": "C20",
   "status": "proved",
   "theorems": [
    "KM.Props.C20_record_stable",
    "KM.Props.C46_kept"
   ],
   "note": ""
  },
  {
   "property": "C21",
   "status": "proved",
   "theorems": [
    "KM.Props.C21_log_is_posts"
   ],
   "note": ""
  },
  {
   "property": "C22",
   "status": "proved",
   "theorems": [
    "KM.Props.C22_post_isolated",
    "KM.Props.C22_commit_isolated",
    "KM.Props.C22_reset_isolated"
   ],
   "note": ""
  },
  {
   "property": "C23",
   "status": "proved",
   "theorems": [
    "KM.Props.C23_offset_is_history",
    "KM.Props.C23_state_is_history"
   ],
   "note": ""
  },
  {
   "property": "C24",
   "status": "proved",
   "theorems": [
    "KM.Props.C24_monotone",
    "KM.Props.C24_commits_take_maximum",
    "KM.Props.C24_commits_commute"
   ],
   "note": ""
  },
  {
   "property": "C25",
   "status": "proved",
   "theorems": [
    "KM.Props.C25_commit_answers",
    "KM.Props.C25_commit_never_panics"
   ],
   "note": ""
  },
  {
   "property": "C26",
   "status": "proved",
   "theorems": [
    "KM.Props.C26_offset_fetch_exact",
    "KM.Props.C26_offset_fetch_unobservable"
   ],
   "note": ""
  },
  {
   "property": "C27",
   "status": "proved",
   "theorems": [
    "KM.Props.C27_read_your_commits"
   ],
   "note": ""
  },
  {
   "property": "C28",
   "status": "proved",
   "theorems": [
    "KM.Props.C28_reset_exact",
    "KM.Props.C28_reset_unknown"
   ],
   "note": ""
  },
  {
   "property": "C29",
   "status": "proved",
   "theorems": [
    "KM.Props.C29_latest_earliest",
    "KM.Props.C29_never_panics"
   ],
   "note": ""
  },
  {
   "property": "C30",
   "status": "proved",
   "theorems": [
    "KM.Props.C30_by_timestamp",
    "KM.Props.C30_unique",
    "KM.Props.C30_sorted"
   ],
   "note": ""
  },
  {
   "property": "C31",
   "status": "partial",
   "theorems": [
    "KM.Props.C31_reported_timestamp_partial",
    "KM.Props.C31_false"
   ],
   "note": "False of the code: the reported timestamp is that of the record before the returned offset. Proved exactly which timestamp is reported, and the negation by witness."
  },
  {
   "property": "C38",
   "status": "proved",
   "theorems": [
    "KM.Props.C38_read_only"
   ],
   "note": ""
  },
  {
   "property": "C45",
   "status": "partial",
   "theorems": [
    "KM.Props.C45_partitions_apart_partial",
    "KM.Props.C45_numbers_collide"
   ],
   "note": "False outside the int32 range (witness C45_numbers_collide); proved for all pairs of int32 partition numbers."
  },
  {
   "property": "C32",
   "status": "proved",
   "theorems": [
    "KM.Props.C32_fetch_unaltered"
   ],
   "note": ""
  },
  {
   "property": "C33",
   "status": "partial",
   "theorems": [
    "KM.Props.C33_sizes_partial",
    "KM.Props.C33_exact",
    "KM.Props.C33_false"
   ],
   "note": "The size given is that of the messages for every request (C33_exact). The limits hold for requests with one partition per topic. False otherwise, because of C35: what is given for a partition is limited by what another one asked for (witness)."
  },
  {
   "property": "C34",
   "status": "partial",
   "theorems": [
    "KM.Props.C34_delivers_everything_partial",
    "KM.Props.C34_consumer_partial",
    "KM.Props.C34_false"
   ],
   "note": "Holds for requests with one partition per topic. False otherwise, because of C35 (witness)."
  },
  {
   "property": "C35",
   "status": "partial",
   "theorems": [
    "KM.Props.C35_exact",
    "KM.Props.C35_own_records_partial",
    "KM.Props.C35_false"
   ],
   "note": "False of the code for a topic with several partitions (the i-th topic entry is answered from the i-th fetched partition); proved exactly what is answered, and the property for requests that name one partition per topic."
  },
  {
   "property": "C36",
   "status": "partial",
   "theorems": [
    "KM.Props.C36_completes_partial",
    "KM.Props.C36_oversize_never_returns",
    "KM.Props.C36_false",
    "KM.Props.C36_mock_partial"
   ],
   "note": "False of the code when the records exceed the limit: then Fetch never returns (proved). When they fit, the number of actions is bounded; in the whole mock with a fair scheduler, every request taken up is then laid down."
  },
  {
   "property": "C37",
   "status": "partial",
   "theorems": [
    "KM.Props.C37_no_crash_partial",
    "KM.Props.C37_false_negative_offset",
    "KM.Props.C37_false_no_partitions"
   ],
   "note": "False for a negative offset and for a topic without partitions; proved for all other requests."
  },
  {
   "property": "C52",
   "status": "proved",
   "theorems": [
    "KM.Props.C52_ends_after_finish"
   ],
   "note": ""
  },
  {
   "property": "C15",
   "status": "proved",
   "theorems": [
    "KM.Props.C15_keys_distinct",
    "KM.Props.C15_dispatch",
    "KM.Props.C15_eleven"
   ],
   "note": ""
  },
  {
   "property": "C16",
   "status": "proved",
   "theorems": [
    "KM.Props.C16"
   ],
   "note": ""
  },
  {
   "property": "C17",
   "status": "partial",
   "theorems": [
    "KM.Props.C17_no_response",
    "KM.Props.C17_truncated",
    "KM.Props.C17_unsupported",
    "KM.Props.C17_surplus",
    "KM.Props.C17_no_effect_partial",
    "KM.Props.C17_false_commit_surplus"
   ],
   "note": "False for OffsetCommit with surplus bytes (witness: the offset is committed, then the request is rejected); everything else is proved for all byte strings."
  },
  {
   "property": "C18",
   "status": "partial",
   "theorems": [
    "KM.Props.C18_partial",
    "KM.Props.C18_false_large_body",
    "KM.Props.C18_false_large_header",
    "KM.Props.C18_false_assignments"
   ],
   "note": "False for headers or bodies of more than 4096 bytes (all of them are rejected, proved) and SyncGroup with assignments; proved for all other well-formed requests, from request bytes to response bytes."
  },
  {
   "property": "C39",
   "status": "proved",
   "theorems": [
    "KM.Props.C39_checksum",
    "KM.Props.C39_offset_independent"
   ],
   "note": "CRC-32C defined by divisibility of polynomials over GF(2) (Spec/Crc.lean); also every burst of up to 32 bits is detected."
  },
  {
   "property": "C40",
   "status": "partial",
   "theorems": [
    "KM.Props.C40_size_partial",
    "KM.Props.C40_false"
   ],
   "note": "False of the code for every delivered record: the field is 12 too large."
  },
  {
   "property": "C41",
   "status": "proved",
   "theorems": [
    "KM.Props.C41_assignment",
    "KM.Props.C41_exact"
   ],
   "note": "For topic names below 32 KiB and responses below 2 GiB, read back with an independent client parser."
  },
  {
   "property": "C42",
   "status": "proved",
   "theorems": [
    "KM.Props.C42_never_leader",
    "KM.Props.C42_assignments_rejected"
   ],
   "note": ""
  },
  {
   "property": "C43",
   "status": "proved",
   "theorems": [
    "KM.Props.C43_leads_here"
   ],
   "note": ""
  },
  {
   "property": "C44",
   "status": "partial",
   "theorems": [
    "KM.Props.C44_partition_two_partial",
    "KM.Props.C44_false"
   ],
   "note": "False of the code: partition 2 is reported for every topic."
  },
  {
   "property": "C55",
   "status": "partial",
   "theorems": [
    "KM.Props.C39_checksum",
    "KM.Props.C55_false"
   ],
   "note": "False of the code: the checksum is CRC-32C (C39) and not the CRC-32 of the protocol (witness)."
  },
  {
   "property": "C47",
   "status": "partial",
   "theorems": [
    "KM.Props.C47_terminated_partial",
    "KM.Props.C47_startable",
    "KM.Props.C47_false"
   ],
   "note": "When the wait is over, the accept loop has ended and every connection goroutine has left its loop and signed off, with at most the unlocking of the mutex left (C47_false: a goroutine may still be there); Start then does not panic."
  },
  {
   "property": "C48",
   "status": "proved",
   "theorems": [
    "KM.Props.C48_never_negative",
    "KM.Props.C48_counters"
   ],
   "note": ""
  },
  {
   "property": "C50",
   "status": "partial",
   "theorems": [
    "KM.Props.C50_partial",
    "KM.Props.C50_false"
   ],
   "note": "False of the code: the close callback removes the number of the latest connection, not its own (witness). Holds in runs in which only the latest connection leaves."
  },
  {
   "property": "C51",
   "status": "partial",
   "theorems": [
    "KM.Props.C51_listener_once",
    "KM.Props.C51_context_once_partial",
    "KM.Props.C51_before_start",
    "KM.Props.C51_stop_then_start",
    "KM.Props.C51_false"
   ],
   "note": "The listener is closed at most once per start in every run. The context is cancelled at most once if no RequestStop overlaps a Start; otherwise twice is possible (witness)."
  },
  {
   "property": "C49",
   "status": "partial",
   "theorems": [
    "KM.Props.C49_one_read",
    "KM.Props.C49_only_buffered",
    "KM.Props.C49_closes",
    "KM.Props.C49_new_connection",
    "KM.Props.C49_ends_partial",
    "KM.Props.C49_false",
    "KM.Props.C49_mock",
    "KM.Props.C49_mock_new",
    "KM.Props.C49_mock_closes",
    "KM.Props.C49_mock_ends_partial"
   ],
   "note": "After cancellation a connection reads at most once more, answers only requests it has already received, and closes when it ends. That it always ends is false of the code: an oversize Fetch keeps it busy forever (witness). C49_ends_partial: it ends unless fetches keep finding records. C49_mock_ends_partial: with a fair scheduler it ends if every Fetch has room."
  },
  {
   "property": "C46",
   "status": "proved",
   "theorems": [
    "KM.Props.C46_kept",
    "KM.Props.C46_untouched"
   ],
   "note": "In every run of the whole mock (lifecycle goroutines, connections and API calls interleaved): lifecycle steps leave the store alone, and the store after any run is the store before plus the effects of posts and commits."
  },
  {
   "property": "C53",
   "status": "partial",
   "theorems": [
    "KM.Props.C53_partial",
    "KM.Props.C53_false"
   ],
   "note": "False of the code: the store keeps the caller's slices, so changing a posted buffer changes the record (witness down to the Fetch response). Proved with an explicit heap of buffers: as long as the bytes of posted slices are left alone (other bytes of the same buffers may change), the log is the bytes at the time of the post."
  },
  {
   "property": "C54",
   "status": "partial",
   "theorems": [
    "KM.Props.C54_sound",
    "KM.Props.C54_eof_closed",
    "KM.Props.C54_partial",
    "KM.Props.C54_net",
    "KM.Props.C54_handler",
    "KM.Props.C54_deadline",
    "KM.Props.C54_false"
   ],
   "note": "False for a connection reset that is wrapped other than by the net package (witness); exact for end-of-file and closed connections at any depth and for every error as the net package makes it."
  },
  {
   "property": "C56",
   "status": "proved",
   "theorems": [
    "KM.Props.C56_no_nil_handler",
    "KM.Props.C56_no_nil_mock",
    "KM.Props.C56_never_blocked"
   ],
   "note": "For one connection among arbitrary others and for every reachable state of the whole mock. Index and cast panics are treated in C09, C29, C37."
  },
  {
   "property": "C57",
   "status": "proved",
   "theorems": [
    "KM.Props.C57_post_takes_effect"
   ],
   "note": ""
  },
  {
   "property": "C58",
   "status": "partial",
   "theorems": [
    "KM.Props.C58_per_caller_partial",
    "KM.Props.C58_one_poster_partial",
    "KM.Props.C58_false"
   ],
   "note": "False of the code with two callers: the clock is read before the lock is taken (witness). Holds for the posts of one caller, and for a log with a single poster."
  },
  {
   "property": "C59",
   "status": "partial",
   "theorems": [
    "KM.Props.C59_fetch_partial",
    "KM.Props.C59_commit",
    "KM.Props.C59_list_offsets",
    "KM.Props.C59_offset_fetch",
    "KM.Props.C59_sync_group",
    "KM.Props.C59_false"
   ],
   "note": "False for a Fetch that names several partitions of one topic (witness); Fetch holds with one partition per topic, and for records and responses under 2 GiB. The other requests hold in full; SyncGroup for topic names that have a wire representation."
  },
  {
   "property": "C60",
   "status": "partial",
   "theorems": [
    "KM.Props.C60_posts_partial",
    "KM.Props.C60_latest",
    "KM.Props.C60_commits",
    "KM.Props.C60_resets",
    "KM.Props.C60_created",
    "KM.Props.C60_false"
   ],
   "note": "False for a Fetch that names several partitions of one topic (witness); otherwise in full."
  },
  {
   "property": "C61",
   "status": "partial",
   "theorems": [
    "KM.Props.C61_boolean",
    "KM.Props.C61_float_uuid",
    "KM.Props.C61_varuint",
    "KM.Props.C61_varint",
    "KM.Props.C61_negative_length",
    "KM.Props.C61_false"
   ],
   "note": "False for compact types, whose lengths are written and read with zigzag (witness); the rest holds in full."
  },
  {
   "property": "C62",
   "status": "partial",
   "theorems": [
    "KM.Props.C62_null_vs_empty_array_partial",
    "KM.Props.C62_false"
   ],
   "note": "Holds at top level. False of the fields of a struct, where reading a null array panics, see C09 (witness)."
  },
  {
   "property": "C63",
   "status": "proved",
   "theorems": [
    "KM.Props.C63_atomic",
    "KM.Props.C63_no_lost_update"
   ],
   "note": ""
  },
  {
   "property": "C64",
   "status": "proved",
   "theorems": [
    "KM.Props.C64_progress",
    "KM.Props.C64_no_nil",
    "KM.Props.C64_one_mutex",
    "KM.Props.C64_released",
    "KM.Props.C64_none_left"
   ],
   "note": ""
  },
  {
   "property": "C65",
   "status": "partial",
   "theorems": [
    "KM.Props.C65_locked_partial",
    "KM.Props.C65_accesses",
    "KM.Props.C65_false_list_offsets",
    "KM.Props.C65_false_sync_group"
   ],
   "note": "False: ListOffsets and SyncGroup read without locking (two witnesses); all other pairs of accesses exclude each other."
  },
  {
   "property": "C66",
   "status": "partial",
   "theorems": [
    "KM.Props.C66_stops",
    "KM.Props.C66_dropped_partial",
    "KM.Props.C66_connected",
    "KM.Props.C66_false"
   ],
   "note": "False of a client that has reset the connection: the probe fails with an error, which isConnected takes for a live connection, and the mock crashes (witness). Holds for clients whose departure the probe sees as end of file."
  },
  {
   "property": "C67",
   "status": "partial",
   "theorems": [
    "KM.Props.C67_data",
    "KM.Props.C67_answer_partial",
    "KM.Props.C67_minimum_partial",
    "KM.Props.C67_false_minimum",
    "KM.Props.C67_false_empty"
   ],
   "note": "False of MinBytes, which is ignored (witness), and of a Fetch that names several partitions of one topic, whose early answer may be empty (witness). Holds for MinBytes up to the size of the smallest record, and for one partition per topic."
  },
  {
   "property": "C68",
   "status": "partial",
   "theorems": [
    "KM.Props.C68_requestStop",
    "KM.Props.C68_start",
    "KM.Props.C68_stopped_partial",
    "KM.Props.C68_waitForTermination_partial",
    "KM.Props.C68_restart_partial",
    "KM.Props.C68_false"
   ],
   "note": "RequestStop and Start: as stated. WaitForTermination and Restart: in runs in which the records of its partitions fit into every Fetch, while it is served; with a Fetch that keeps finding a record too big for it, WaitForTermination never returns (witness, a fair run with one caller)."
  },
  {
   "property": "C69",
   "status": "partial",
   "theorems": [
    "KM.Props.C69_partial",
    "KM.Props.C69_started_partial",
    "KM.Props.C69_false"
   ],
   "note": "False when Restart is called while another goroutine is in WaitForTermination, which then panics because the wait group is reused (witness). Holds when no call overlaps with Start."
  },
  {
   "property": "C70",
   "status": "partial",
   "theorems": [
    "KM.Props.C70_partial",
    "KM.Props.C70_false"
   ],
   "note": "Holds for a connection on which every Fetch has room for the records of its partitions. False otherwise: a Fetch that keeps finding a record too big for it is never answered (witness, a fair run)."
  },
  {
   "property": "C71",
   "status": "proved",
   "theorems": [
    "KM.Props.C71",
    "KM.Props.C71_complete"
   ],
   "note": "A Fetch of the consumer may name several topics, one partition of each; an OffsetCommit may name any partitions."
  },
  {
   "property": "C72",
   "status": "partial",
   "theorems": [
    "KM.Props.C72_partial",
    "KM.Props.C72_registry",
    "KM.Props.C72_writes",
    "KM.Props.C72_reads",
    "KM.Props.C72_false_restart",
    "KM.Props.C72_false_listener"
   ],
   "note": "Holds as long as Start, also as part of Restart, does not overlap with another lifecycle call; for clients and the connection counters in all runs. False otherwise (three witnesses)."
  },
  {
   "property": "C73",
   "status": "partial",
   "theorems": [
    "KM.Props.C73_fetch_partial",
    "KM.Props.C73_list_offsets_partial",
    "KM.Props.C73_offset_fetch_partial",
    "KM.Props.C73_commit_partial",
    "KM.Props.C73_false"
   ],
   "note": "Holds for each partition of a request (Fetch: with one partition per topic, as in C59; for all its partitions at once see C96). False for all partitions of a ListOffsets request at once: the two ends that one ListOffsets gives need not belong to one moment (witness)."
  },
  {
   "property": "C74",
   "status": "proved",
   "theorems": [
    "KM.Props.C74_finish",
    "KM.Props.C74_stays_up"
   ],
   "note": ""
  },
  {
   "property": "C75",
   "status": "partial",
   "theorems": [
    "KM.Props.C75_partial",
    "KM.Props.C75_false"
   ],
   "note": "Every panic outside the callers' goroutines is one of: the socket cannot be opened; Accept fails on an open listener; a connection whose read or write failed other than by a close, that was sent a message size of 2^32-4 or more, or that was sent a request that is not acceptable. False as stated: ApiVersions version 3 from one client ends the process (witness)."
  },
  {
   "property": "C76",
   "status": "partial",
   "theorems": [
    "KM.Props.C76_connection",
    "KM.Props.C76_partial",
    "KM.Props.C76_false",
    "KM.Props.C76_serves",
    "KM.Props.C76_returns"
   ],
   "note": "Holds for panics of connections, and for an accept loop when the connections of the time end. False for an accept loop as long as one client stays connected: the deferred function waits for it, and the process goes on serving that client (witnesses). WaitForTermination may return before the process ends."
  },
  {
   "property": "C77",
   "status": "partial",
   "theorems": [
    "KM.Props.C77_accepted_partial",
    "KM.Props.C77_bounded_partial",
    "KM.Props.C77_false",
    "KM.Props.C77_false_fetch"
   ],
   "note": "Holds for requests that are accepted: at most 40 bytes per byte of the request. For any bytes the reservation is at most 40*(4096+2*(2^31-1)) bytes. False as stated: 14 bytes make the mock reserve almost 32 GiB (witness), and a Fetch of 32 bytes makes it reserve 24 bytes for each of 2^31-1 partitions (C77_false_fetch)."
  },
  {
   "property": "C78",
   "status": "partial",
   "theorems": [
    "KM.Props.C78_commit_partial",
    "KM.Props.C78_list_offsets_partial",
    "KM.Props.C78_offset_fetch_partial",
    "KM.Props.C78_fetch_partial",
    "KM.Props.C78_false"
   ],
   "note": "Holds for OffsetCommit, ListOffsets and OffsetFetch. False for Fetch, which never reports an error: a missing partition looks like an empty one (C78_fetch_partial says so of every Fetch with one partition per topic; witness C78_false)."
  },
  {
   "property": "C79",
   "status": "partial",
   "theorems": [
    "KM.Props.C79_everything_partial",
    "KM.Props.C79_join_partial",
    "KM.Props.C79_heartbeat_partial",
    "KM.Props.C79_false"
   ],
   "note": "No partition is without a member: whoever asks is assigned all partitions that exist. False as stated: all members get the same member id and the same partitions (witness)."
  },
  {
   "property": "C80",
   "status": "partial",
   "theorems": [
    "KM.Props.C80_last_partial",
    "KM.Props.C80_closed_partial",
    "KM.Props.C80_false"
   ],
   "note": "After a close nothing is done with the connection, and the goroutine closes it unless a read has found that the client has closed it. False as stated: when the client leaves, the goroutine ends without closing the connection, and nothing closes it later (witness)."
  },
  {
   "property": "C81",
   "status": "partial",
   "theorems": [
    "KM.Props.C81_leaders_partial",
    "KM.Props.C81_false"
   ],
   "note": "Holds for the leaders. False for the rest: in every response the controller is node 500 and the replicas are [1], which are not listed (C81_false says so of every response)."
  },
  {
   "property": "C82",
   "status": "partial",
   "theorems": [
    "KM.Props.C82_named_partial",
    "KM.Props.C82_false"
   ],
   "note": "Holds for requests that name topics. False as stated: a null array of topics ends the process (witness)."
  },
  {
   "property": "C83",
   "status": "partial",
   "theorems": [
    "KM.Props.C83_rest_partial",
    "KM.Props.C83_unseen",
    "KM.Props.C83_false"
   ],
   "note": "Holds for key, value and timestamp. False for headers, of every run: erase the headers from all posts, and the same bytes go over every connection."
  },
  {
   "property": "C84",
   "status": "proved",
   "theorems": [
    "KM.Props.C84",
    "KM.Props.C84_clients"
   ],
   "note": "Any latency for each connection. The events other than sleeping and the beginning of rounds are the same in the same order; store, time, callers and the ways to crash are the same at the end."
  },
  {
   "property": "C85",
   "status": "partial",
   "theorems": [
    "KM.Props.C85_exactly_partial",
    "KM.Props.C85_elements_partial",
    "KM.Props.C85_tags_partial",
    "KM.Props.C85_tag_bytes_partial",
    "KM.Props.C85_arrays_false",
    "KM.Props.C85_false"
   ],
   "note": "C85_exactly_partial says for each type of the codec for which values both write the same. Arrays of such values differ in the announced length only. The bytes of tags do not depend on the order of the map. False as stated: nil strings and bytes, compact strings, booleans, arrays, tagged fields (witnesses; every array of n elements is announced as n+1)."
  },
  {
   "property": "C86",
   "status": "partial",
   "theorems": [
    "KM.Props.C86_finished_partial",
    "KM.Props.C86_returned_partial",
    "KM.Props.C86_deaf_partial",
    "KM.Props.C86_calm_partial",
    "KM.Props.C86_returns_partial",
    "KM.Props.C86_returns_calm_partial",
    "KM.Props.C86_returns_done_partial",
    "KM.Props.C86_returns_done_calm_partial",
    "KM.Props.C86_false",
    "KM.Props.C86_hangs"
   ],
   "note": "Requests begun before Close are finished; nothing more is taken; when Close has returned the goroutine has ended. With a fair scheduler, and if no request lasts for ever, Close returns or panics (or the goroutine of the client does); no request lasts for ever if at some time the server is done and Fetch finds no further record. If all requests received have been begun, Close does not panic. False as stated: with a second request already received Close can panic, and a request received but not begun can lose its answer; and Close waits for ever for a Fetch whose next record is too big for its limit (witnesses)."
  },
  {
   "property": "C87",
   "status": "proved",
   "theorems": [
    "KM.Props.C87_lookup",
    "KM.Props.C87_list",
    "KM.Props.C87_no_race",
    "KM.Props.C87_stable",
    "KM.Props.C87_returns"
   ],
   "note": "A model of its own (ApiInit.lean): initializeApis statement by statement in any number of callers, and the lookups of requests, which begin after a call has returned. It justifies the constant table and version map of the main model."
  },
  {
   "property": "C88",
   "status": "proved",
   "theorems": [
    "KM.Props.C88",
    "KM.Props.C88_earliest",
    "KM.Props.C88_latest",
    "KM.Props.C88_time",
    "KM.Props.C88_complete"
   ],
   "note": "One partition per topic and Fetch request, as in C71. The time is that of C30."
  },
  {
   "property": "C89",
   "status": "partial",
   "theorems": [
    "KM.Props.C89_restart_partial",
    "KM.Props.C89_start_partial",
    "KM.Props.C89_false"
   ],
   "note": "True of Restart, which waits for the accept loop, if nobody else stops the mock meanwhile. After Start it becomes true under fairness and stays true until someone stops the mock. Missing: at the return of Start, for which it is false: Start does not wait for the goroutine that opens the listener."
  },
  {
   "property": "C90",
   "status": "partial",
   "theorems": [
    "KM.Props.C90_partial",
    "KM.Props.C90_last_partial",
    "KM.Props.C90_none",
    "KM.Props.C90_false"
   ],
   "note": "The offset read is the highest committed since the last reset, up to a moment of the request; after a commit it is the committed offset or the one before, whichever is higher. Missing, and false: that a lower commit is told, that metadata is told, and -1 for a group that has committed nothing (it is told 0)."
  },
  {
   "property": "C91",
   "status": "partial",
   "theorems": [
    "KM.Props.C91_watermark_partial",
    "KM.Props.C91_beyond",
    "KM.Props.C91_negative",
    "KM.Props.C91_false"
   ],
   "note": "The high watermark is the length of the log at a moment of the request, if the offset is not out of range. False otherwise: an offset beyond the end is answered without error and with itself as high watermark; a negative one ends the process."
  },
  {
   "property": "C92",
   "status": "proved",
   "theorems": [
    "KM.Props.C92_fetch",
    "KM.Props.C92_list_offsets",
    "KM.Props.C92_commit",
    "KM.Props.C92_offset_fetch"
   ],
   "note": "The functions are in Spec/Broker.lean. For Fetch, as long as no record and the response are 2 GiB or more; the function shows what happens with several partitions per topic, too. The topics of an OffsetFetch response come in any order."
  },
  {
   "property": "C93",
   "status": "proved",
   "theorems": [
    "KM.Props.C93_sequential",
    "KM.Props.C93_new"
   ],
   "note": "The machine is in Spec/Sequence.lean. Requests whose answer does not concern the data (Metadata, FindCoordinator, JoinGroup, Heartbeat, LeaveGroup, ApiVersions) leave it alone; their answers are the subject of other claims. Topic names, records and responses are of a size that the wire format has room for."
  },
  {
   "property": "C94",
   "status": "partial",
   "theorems": [
    "KM.Props.C94_linearizable_partial",
    "KM.Props.C94_false",
    "KM.Props.C94_several_false"
   ],
   "note": "Proved for all interleavings and all requests except SyncGroup. A Fetch is one part of the order, unless a partition that it names is created and written to while it is served; a post to a partition that exists is one part, a post that creates it is two (the partition is created, the record is added). Other requests have one part per partition that they name, with its share of the answer; CreatePartitionTopics one per topic. False if a post that creates its partition is one part: C94_false, a client sees the new partition without the record; false if a request about several partitions is one part: C94_several_false (ListOffsets). A Fetch with several partitions of one topic is covered unless one of them is created and written to meanwhile."
  },
  {
   "property": "C95",
   "status": "partial",
   "theorems": [
    "KM.Props.C95_accepted_partial",
    "KM.Props.C95_false"
   ],
   "note": "Members are accepted: C95_accepted_partial (OffsetCommit for partitions that exist). That others are refused is false: the mock keeps no members; C95_false has a Heartbeat and an OffsetCommit of a member that never joined, both accepted, and the offset of the group changed."
  },
  {
   "property": "C96",
   "status": "partial",
   "theorems": [
    "KM.Props.C96_snapshot_partial",
    "KM.Props.C96_reply_partial",
    "KM.Props.C96_false"
   ],
   "note": "C96_snapshot_partial: holds with one partition per topic (otherwise see C35, C59; C96_reply_partial says what is answered then, at one moment), if each partition exists when the request is taken up or has no records when it is answered, and no record and not the response are 2 GiB or more. False for a partition that is created and written while the request is served: Fetch does not look for it again (witness)."
  },
  {
   "property": "C97",
   "status": "partial",
   "theorems": [
    "KM.Props.C97_order_partial",
    "KM.Props.C97_false"
   ],
   "note": "Under the conditions of C96. False for a partition that is created while the request is served (witness)."
  },
  {
   "property": "C98",
   "status": "proved",
   "theorems": [
    "KM.Props.C98_grows",
    "KM.Props.C98_latest",
    "KM.Props.C98_again",
    "KM.Props.C98_up_to_end",
    "KM.Props.C98_post_order"
   ],
   "note": "C98_grows is the statement, the others are its consequences. No record and no response of 2 GiB or more; fewer than 2^63 records."
  },
  {
   "property": "C99",
   "status": "partial",
   "theorems": [
    "KM.Props.C99_fetch",
    "KM.Props.C99_rest",
    "KM.Props.C99_log",
    "KM.Props.C99_list_partial",
    "KM.Props.C99_list_iff",
    "KM.Props.C99_false",
    "KM.Props.C99_wild",
    "KM.Props.C99_exchanged"
   ],
   "note": "Holds for Fetch, which has the mutex, with any order of loads and stores. ListOffsets has not: its index is never out of range and a record it finds is the right one, but it may find a nil pointer or read behind the end of the array (witnesses). C99_list_iff says which orders of loads and stores exclude this; the language allows all of them."
  },
  {
   "property": "C100",
   "status": "partial",
   "theorems": [
    "KM.Props.C100_assigned",
    "KM.Props.C100_blame",
    "KM.Props.C100_alive_partial",
    "KM.Props.C100_false",
    "KM.Props.C100_moment_false"
   ],
   "note": "False: the runtime ends the process when SyncGroup iterates over a map into which a topic or partition is being stored (witness). It does so in no other case (C100_blame), so never without SyncGroup (C100_alive_partial). What a SyncGroup that ends has assigned is as stated (C100_assigned), exactly what exists if nothing is created meanwhile; it need not be what existed at any one moment (C100_moment_false)."
  },
  {
   "property": "C101",
   "status": "partial",
   "theorems": [
    "KM.Props.C101_protocol_partial",
    "KM.Props.C101_assigned_partial",
    "KM.Props.C101_false"
   ],
   "note": "The protocol is one the member offered exactly if it offered roundrobin; the assignment is within the subscription exactly if no other topic exists. False as stated: a member that offers range and subscribes to one topic is told roundrobin and assigned another topic (witness)."
  },
  {
   "property": "C102",
   "status": "partial",
   "theorems": [
    "KM.Props.C102_partial",
    "KM.Props.C102_request_partial",
    "KM.Props.C102_delivery_partial",
    "KM.Props.C102_example",
    "KM.Props.C102_false"
   ],
   "note": "Every message that arrives is accepted as a request and becomes an Exchange, from which C59, C60, C71, C73, C78 and C90 start. Holds when every Fetch on the connection has room for the records of its partitions; delivery moreover for requests with one partition per topic (C60_false) and sizes below 2 GiB. False otherwise: a Fetch for fewer bytes than the next record is never answered (witness)."
  },
  {
   "property": "C103",
   "status": "proved",
   "theorems": [
    "KM.Props.C103",
    "KM.Props.C103_answered",
    "KM.Props.C103_accepted",
    "KM.Props.C103_exact",
    "KM.Props.C103_proper",
    "KM.Props.C103_unambiguous",
    "KM.Props.C103_served",
    "KM.Props.C103_example"
   ],
   "note": "A converse of C18: soundness of the decoder for all eleven request types, against the grammar of Spec/Loose. C103_example: a heartbeat whose group id has length -5 is answered although it is the proper message of no request."
  },
  {
   "property": "C104",
   "status": "proved",
   "theorems": [
    "KM.Props.C104_told",
    "KM.Props.C104_answered",
    "KM.Props.C104_served",
    "KM.Props.C104_example"
   ],
   "note": "WaitForTermination and Restart count because they call RequestStop. The responses of C104_answered are those of C14, for writes that succeed."
  },
  {
   "property": "C105",
   "status": "proved",
   "theorems": [
    "KM.Props.C105",
    "KM.Props.C105_exchange",
    "KM.Props.C105_example"
   ],
   "note": "Exchange now covers every accepted message of a request, not only the proper one, so all theorems that start from it do."
  },
  {
   "property": "C106",
   "status": "proved",
   "theorems": [
    "KM.Props.C106",
    "KM.Props.C106_after",
    "KM.Props.C106_order",
    "KM.Props.C106_posts",
    "KM.Props.C106_modest"
   ],
   "note": "TCP is assumed to be a reliable stream of bytes in each direction (Net.lean). C106_posts is for Fetch requests with one partition per topic, because of the first disagreement of C60."
  },
  {
   "property": "C107",
   "status": "proved",
   "theorems": [
    "KM.Props.C107_linearizable"
   ],
   "note": "TCP is assumed to be a reliable stream of bytes in each direction (Net.lean). The parts are those of C94, where C94_false and C94_several_false show that larger parts would make the statement false. Responses are below 2 GiB, and records of a size that the wire format has room for."
  },
  {
   "property": "C108",
   "status": "proved",
   "theorems": [
    "KM.Props.C108",
    "KM.Props.C108_posts"
   ],
   "note": "Room, the fair scheduler and the network that delivers are in the statement. Without room a Fetch may never be answered (C70_false, C102_false). That the process does not come to its end is part of the run having no end. A message that is not accepted as a request would end the process, so that C108 also says that all messages sent on the connection are accepted."
  },
  {
   "property": "C109",
   "status": "proved",
   "theorems": [
    "KM.Props.C109",
    "KM.Props.C109_progress",
    "KM.Props.C109_all",
    "KM.Props.C109_modest"
   ],
   "note": "As in C59, one partition per topic in a request, records below 2 GiB on the wire, responses below 2 GiB; for progress the conditions of C108. Partition lengths stay below 2^63."
  },
  {
   "property": "C110",
   "status": "proved",
   "theorems": [
    "KM.Props.C110_records",
    "KM.Props.C110_read",
    "KM.Props.C110_offsets",
    "KM.Props.C110_offset_read",
    "KM.Props.C110_modest"
   ],
   "note": "For the records that clients read: one partition per topic in a Fetch request, from an offset that is not negative, records below 2 GiB on the wire, responses below 2 GiB. C110_records and C110_offsets have no such condition."
  },
  {
   "property": "C111",
   "status": "proved",
   "theorems": [
    "KM.Props.C111",
    "KM.Props.C111_committed",
    "KM.Props.C111_modest"
   ],
   "note": "As in C109, one partition per topic in a Fetch request, records and responses below 2 GiB; partitions shorter than 2^62."
  },
  {
   "property": "C112",
   "status": "proved",
   "theorems": [
    "KM.Props.C112",
    "KM.Props.C112_modest"
   ],
   "note": "As in C93: records and responses below 2 GiB, topic names below 32 KiB. Requests are those that the mock accepts (C103) and that fit its buffer."
  },
  {
   "property": "C113",
   "status": "proved",
   "theorems": [
    "KM.Props.C113",
    "KM.Props.C113_commits",
    "KM.Props.C113_exact",
    "KM.Props.C113_modest"
   ],
   "note": "As in C109, one partition per topic in a Fetch request, records and responses below 2 GiB. C113_commits and C113_exact have no condition on the records."
  },
  {
   "property": "C114",
   "status": "proved",
   "theorems": [
    "KM.Props.C114",
    "KM.Props.C114_wire",
    "KM.Props.C114_limits",
    "KM.Props.C114_small",
    "KM.Props.C114_received"
   ],
   "note": "C114_limits is for records below 2 GiB. C106_modest and C109_modest to C113_modest are the corollaries for the other claims."
  },
  {
   "property": "C115",
   "status": "proved",
   "theorems": [
    "KM.Props.C115",
    "KM.Props.C115_changes",
    "KM.Props.C115_told"
   ],
   "note": "Responses below 4 GiB, which C114_small shows of modest data. No write of the mock on the connection has failed."
  },
  {
   "property": "C116",
   "status": "proved",
   "theorems": [
    "KM.Props.C116",
    "KM.Props.C116_other"
   ],
   "note": "With the size limits of C112. The order of the entries in the response to ApiVersions is that of a Go map."
  },
  {
   "property": "C117",
   "status": "partial",
   "theorems": [
    "KM.Props.C117_new",
    "KM.Props.C117_call_partial",
    "KM.Props.C117_between",
    "KM.Props.C117_always",
    "KM.Props.C117_one",
    "KM.Props.C117_up",
    "KM.Props.C117_stopping_partial",
    "KM.Props.C117_false"
   ],
   "note": "Missing: a Fetch whose limits have no room for the records of its partitions, which keeps WaitForTermination waiting for ever (C117_false, from C68_false)."
  },
  {
   "property": "C118",
   "status": "proved",
   "theorems": [
    "KM.Props.C118_answered",
    "KM.Props.C118_answers",
    "KM.Props.C118_posts",
    "KM.Props.C118_ends"
   ],
   "note": "That a client's connection is accepted at some time is a hypothesis (`connects`); C119 shows it of clients that connect."
  },
  {
   "property": "C119",
   "status": "proved",
   "theorems": [
    "KM.Props.C119_one",
    "KM.Props.C119_order",
    "KM.Props.C119_shut",
    "KM.Props.C119_settled",
    "KM.Props.C119_served",
    "KM.Props.C119_visits",
    "KM.Props.C119_test"
   ],
   "note": "The queue of connections that the kernel keeps for a listener is taken to be unlimited and first come, first served."
  },
  {
   "property": "C120",
   "status": "proved",
   "theorems": [
    "KM.Props.C120",
    "KM.Props.C120_commits"
   ],
   "note": "Possibilistic: the run without these clients is one of the runs of the mock; how likely it is, and how long requests take, is not modelled."
  },
  {
   "property": "C121",
   "status": "proved",
   "theorems": [
    "KM.Props.C121",
    "KM.Props.C121_records",
    "KM.Props.C121_requestStop",
    "KM.Props.C121_reading",
    "KM.Props.C121_waits"
   ],
   "note": "The room of a connection (what the buffers of both sides and the network hold) is a number that does not change; a write that fails does not wait."
  },
  {
   "property": "C122",
   "status": "partial",
   "theorems": [
    "KM.Props.C122_wakes_partial",
    "KM.Props.C122_exchange_partial",
    "KM.Props.C122_answer_partial",
    "KM.Props.C122_false"
   ],
   "note": "Holds for partitions that exist when Fetch begins (the answer: with one partition per topic, as in C35). False of a partition that is created while Fetch waits: Fetch does not look for it again, waits until its time is up and answers without the record (witness)."
  },
  {
   "property": "C123",
   "status": "proved",
   "theorems": [
    "KM.Props.C123_work",
    "KM.Props.C123_fetch"
   ],
   "note": "Bounds for all requests that are answered; for Fetch under the condition of C36 that the records fit (without it C36_oversize_never_returns)."
  },
  {
   "property": "C124",
   "status": "proved",
   "theorems": [
    "KM.Props.C124_answered",
    "KM.Props.C124_exact",
    "KM.Props.C124_all"
   ],
   "note": "C108 and C109 with hypotheses on the size of the data and the limits of the requests only."
  },
  {
   "property": "C125",
   "status": "partial",
   "theorems": [
    "KM.Props.C125_receives_partial",
    "KM.Props.C125_untold",
    "KM.Props.C125_false"
   ],
   "note": "Holds for the partitions that exist before the member sends its SyncGroup request. False of topics and partitions that are created later: every Heartbeat is answered without error (C125_untold), so the member never learns of them (witness)."
  },
  {
   "property": "C126",
   "status": "proved",
   "theorems": [
    "KM.Props.C126_later"
   ],
   "note": ""
  },
  {
   "property": "C127",
   "status": "proved",
   "theorems": [
    "KM.Props.C127_known",
    "KM.Props.C127_returned",
    "KM.Props.C127_origin"
   ],
   "note": "Fetch requests with one partition per topic (see C35); topic names that fit the protocol and responses below 2 GiB."
  },
  {
   "property": "C128",
   "status": "proved",
   "theorems": [
    "KM.Props.C128_back",
    "KM.Props.C128_again",
    "KM.Props.C128_race"
   ],
   "note": "C128_race: the witness that a commit under way undoes the call. Fetch requests with one partition per topic (see C35); responses below 2 GiB."
  },
  {
   "property": "C129",
   "status": "proved",
   "theorems": [
    "KM.Props.C129_records",
    "KM.Props.C129_count",
    "KM.Props.C129_exact"
   ],
   "note": "Responses below 2 GiB."
  },
  {
   "property": "C130",
   "status": "proved",
   "theorems": [
    "KM.Props.C130_read",
    "KM.Props.C130_commit"
   ],
   "note": "Responses below 2 GiB."
  },
  {
   "property": "C131",
   "status": "proved",
   "theorems": [
    "KM.Props.C131_polled",
    "KM.Props.C131_exact",
    "KM.Props.C131_group"
   ],
   "note": "Records and responses below 2 GiB; each Fetch names one partition per topic; fewer than 2^63 records. For groups: the group starts at offset 0 and SetConsumerGroupOffset is not called for it, as in C113."
  },
  {
   "property": "C132",
   "status": "proved",
   "theorems": [
    "KM.Props.C132"
   ],
   "note": "Records and responses below 2 GiB, fewer than 2^62 records; each Fetch names one partition per topic; SetConsumerGroupOffset is not called for the group, as in C111."
  },
  {
   "property": "C133",
   "status": "proved",
   "theorems": [
    "KM.Props.C133"
   ],
   "note": "Records and responses below 2 GiB, fewer than 2^62 records; each Fetch names one partition per topic."
  },
  {
   "property": "C134",
   "status": "proved",
   "theorems": [
    "KM.Props.C134_content",
    "KM.Props.C134_order"
   ],
   "note": "Records and responses below 2 GiB; each Fetch names one partition per topic; offsets below 2^63."
  },
  {
   "property": "C135",
   "status": "partial",
   "theorems": [
    "KM.Props.C135_partial",
    "KM.Props.C135_since_partial",
    "KM.Props.C135_false"
   ],
   "note": "False of the code when the timestamps of the partition are not in order: ListOffsets searches from the end of the log and stops at the first record before T, so that earlier records of T or later are left out (witness). Holds when they are in order, and otherwise for every call for which no call that stamped its record with a time before T was under way or made later. Records and responses below 2 GiB, fewer than 2^62 records; each Fetch names one partition per topic."
  },
  {
   "property": "C136",
   "status": "proved",
   "theorems": [
    "KM.Props.C136",
    "KM.Props.C136_over",
    "KM.Props.C136_settled"
   ],
   "note": "Small tests as in C124: at most 4 MiB of records per partition, and Fetch requests that allow as much; each Fetch names one partition per topic."
  },
  {
   "property": "C137",
   "status": "proved",
   "theorems": [
    "KM.Props.C137_steps",
    "KM.Props.C137"
   ],
   "note": "Each access to the data is one action; for the mutexes inside see C138."
  },
  {
   "property": "C138",
   "status": "proved",
   "theorems": [
    "KM.Props.C138",
    "KM.Props.C138_seen",
    "KM.Props.C138_free",
    "KM.Props.C138_returns"
   ],
   "note": "Fairness of the scheduler includes that of Go's sync.Mutex: a goroutine that finds the mutex free again and again gets it."
  },
  {
   "property": "C139",
   "status": "proved",
   "theorems": [
    "KM.Props.C139",
    "KM.Props.C139_iff",
    "KM.Props.C139_endless"
   ],
   "note": "So what is shown possible with actions (the witnesses of false claims) is possible with mutexes."
  }
 ]
}