# Formal model of jimsnab/kafka-mock-go in Lean 4

`properties.jsonl` lists the properties, `MANIFEST.json` the theorems proved for each, `seeded/LOG.jsonl` the wrong programs the theorems
were tried against. Everything else is in `lean/Verif`.

## Trusted base

* Lean's kernel (4.33.0). No axioms are added. No `sorry`, `native_decide` or `bv_decide`; `decide` and `decide +kernel` evaluate in the kernel.
* The axioms the theorems in the manifest depend on (from `#print axioms`): `propext`, `Quot.sound` and, for those listed as (C),
  `Classical.choice`. Nothing else. See "Axioms" at the end.
* That the model is the program. The model was written by reading `/repo`; nothing was compiled or run. Each definition cites the lines it models.
* The Go standard library as described in the comments: `bufio.Reader` (`Go/Reader.lean`), `encoding/binary`, `hash/crc32` (`Crc.lean`, the portable
  table algorithm), `sync.WaitGroup` and `sync.Mutex` (`Lifecycle.lean`), `errors.Is` (`Go/Error.lean`), `fmt.Sprintf("%d")`, `strconv.Atoi`,
  `sort` (`ApiTable.lean`), `reflect` (`Codec/*`), `net.Conn` (`Prog.lean`).
* Each specification in `Spec/*` says what the English says. These files do not import the model, except that they use the same byte strings,
  fixed-width integers, and the type of records.

## Shape of the model (lean/Verif)

| module | models | how |
|---|---|---|
| `Go/Bytes`, `Go/Map` | byte slices, big-endian numbers, maps | `List UInt8`; association lists, iteration order is any permutation |
| `Go/Reader` | `bufio.Reader` of size 4096 over a `bytes.Buffer` | unread bytes; `Peek`, `Discard` |
| `Go/Error` | error values, `errors.Is`, `wasSocketClosed` | an inductive type of error chains, with `Unwrap() []error` |
| `Codec/Varint`, `VarintSpec` | varint and zigzag functions | `BitVec` with the source's bit operations |
| `Codec/Types`, `Encode`, `Decode` | reflective encoder and decoder | a universe `Ty` of Go types with a denotation; encoding gives `none` on panic, decoding gives short / panic / ok |
| `Codec/Tags` | tagged fields | association lists, any iteration order |
| `Crc` | record checksum | bit operations of the source |
| `Store` | data store | association lists |
| `Heap` | data store with the caller's buffers | slices into a heap of buffers (C53 only) |
| `Prog` | goroutines | programs over atomic actions; `Exec` interleaves one program with any actions of others |
| `Handlers/*` | the eleven API handlers | programs; Fetch with its unbounded loop |
| `ApiTable`, `Dispatch` | api table, dispatcher, framing, connection loop | programs |
| `TestApi` | SimplePost, ExtendedPost, CreatePartitionTopics, SetConsumerGroupOffset | programs |
| `Lifecycle` | Start, RequestStop, WaitForTermination, Restart, FinishRequests, accept loops, connection goroutines | all goroutines with program counters and what they share; connection goroutines run the program `handle` |
| `Alloc` | memory reserved while a request is decoded | the list of `MakeSlice` calls, following `Codec/Decode` (C77) |
| `Latency` | the mock with a latency for each connection | `Late.Step`, `late_run`: every run of it is a run of the mock without (C84) |
| `Outbound` | `outbound-utils.go` | `writeValue`, `writeTags` |
| `CloseClient` | `kafkaClient.Close` with the client's goroutine | `CSys.Step`, `CInv`, `cinv` |
| `ApiInit` | `initializeApis` and the lookups in its tables, for all mocks of a process | `Proc.Step`, `ProcInv` |
| `Props/Ready` | whether the mock listens when Start or Restart returns | `Rising` |
| `Props/Told` | what a group reads after its commits | `C90_last_partial` |
| `Bare` | erasing the headers of all records commutes with every step | `run_bare` |
| `Props/Range` | high watermark and offsets out of range | `C91_watermark_partial` |
| `Spec/Broker` | the answers as functions of data and request | `fetchReply`, `commitNext` |
| `Props/Alone` | the mock answers by these functions while nobody else changes the data | `C92_fetch` |
| `Props/Sharp` | the types outside `Ty.InSync` do not make the round trip | `C01_sharp` |
| `Spec/Sequence` | a broker used by one at a time, as a machine on the data | `Use.Step`, `Behaves` |
| `Props/Sequential` | the mock is this machine when used by one at a time | `Session`, `C93_sequential` |
| `Props/Linear` | operations at the same time have a sequential order | `Timeline`, `Operations`, `C94_linearizable_partial` |
| `Props/LinearCases` | runs of schedules as timelines; a post that creates its partition, and ListOffsets about several partitions, are not one operation | `course`, `C94_false`, `C94_several_false` |
| `Props/Members` | members and strangers are treated alike | `C95_accepted_partial`, `C95_false` |
| `Props/Snapshot` | Fetch answers with a snapshot of all its partitions | `C96_snapshot_partial`, `C96_false`, `C97_order_partial`, `C97_false` |
| `Props/Forward` | requests and posts one after the other see one growing log | `C98_grows`, `C98_latest`, `C98_again`, `C98_up_to_end`, `C98_post_order` |
| `Words` | the log of a partition in memory words | |
| `Props/Words` | reads of the log | `C99_*` |
| `Ranges` | the maps, their marks, SyncGroup's iterations step by step | |
| `Props/Ranges` | no concurrent map accesses without SyncGroup; what SyncGroup assigns | `C100_*` |
| `Props/Subscribed` | offers and subscriptions of group members | `C101_*` |
| `Props/Total` | every request that arrives is answered; delivery of posted records | `C102_*` |
| `Spec/Loose` | grammar of the request messages the mock accepts | |
| `Parses`, `Accepts`, `Props/Strict` | the decoder accepts nothing else; the dispatcher on every byte string | `C103*` |
| `Props/Accepted` | accepted messages are processed as proper ones | |
| `Props/HangUp` | when connections are closed by the mock | `C104_*` |
| `Props/Talk` | all bytes on a connection as a sequence of exchanges | `C105*` |
| `Net`, `NetSim` | the mock with clients at the other ends of its connections; computed runs | |
| `Replies` | what the parts of a conversation say about responses | |
| `Props/Net` | what clients see at their ends of the connections | `C106*` |
| `Props/Seen`, `Props/SeenCases` | what clients and tests see is linearizable; a run with pipelined requests | `C107_linearizable` |
| `Props/Delivered`, `Props/DeliveredCases` | a client receives the responses to its requests, under a fair scheduler; a run without end | `C108`, `C108_posts` |
| `Props/Polls`, `Props/PollsCases` | a consumer that polls, at its own end of its connections; a run without end | `C109`, `C109_progress`, `C109_all` |
| `Props/Origin` | where records and committed offsets come from | `C110_records`, `C110_read`, `C110_offsets`, `C110_offset_read` |
| `Props/Least`, `Props/LeastCases` | the members of a consumer group, each at its own end of its connections; a run | `C111`, `C111_committed` |
| `Props/Turns`, `Props/TurnsCases` | clients and tests that wait for each other; a run | `C112` |
| `Props/Once`, `Props/OnceCases` | acknowledged commits, and members of a consumer group that take turns; a run | `C113`, `C113_commits`, `C113_exact` |
| `Props/Sizes` | how large responses are | `C114`, `C114_wire`, `C114_limits` |
| `Props/Modest`, `Props/ModestCases` | data for which no size is near a limit; cases | `C114_small`, `C114_received`, `C106_modest`, `C109_modest` to `C113_modest` |
| `Props/Ended`, `Props/EndedCases` | the end of a connection as its client sees it; a case | `C115`, `C115_changes`, `C115_told` |
| `Spec/Same`, `Props/Same`, `Props/SameCases` | two runs of the same test; cases | `C116`, `C116_other` |
| `Props/CloseReturns` | `kafkaClient.Close` with a fair scheduler; a case | `CEndless`, `Phase`, `C86_returns_partial` |
| `Props/CloseDone`, `Props/CloseDoneCases` | `kafkaClient.Close` when the server is done; a Fetch that sees it, and one that lasts for ever | `C86_returns_done_partial`, `C86_hangs` |
| `Spec/Life`, `Props/Managed` | the modes of the mock and what calls do in them | `C117_call_partial`, `C117_always`, `C117_up` |
| `Props/TestEnds`, `Props/TestEndsCases` | tests that stop the mock when their clients are done; a test | `C118_answered`, `C118_ends` |
| `Dial` | clients that connect, the queues of the listeners | `Hub.Step`, `DeskInv` |
| `Props/Arrivals`, `Props/ArrivalsCases` | clients that connect are served; a test with a client that connects | `C119_order`, `C119_settled`, `C119_test` |
| `Mute` | a run without what some clients say | `Store.sight`, `Sys.mute`, `mute_step` |
| `Props/Mute`, `Props/MuteCases` | clients that commit nothing make no difference; the run of C111 without its second member | `C120`, `C120_commits` |
| `Props/Dam`, `Props/DamCases` | clients that do not read; a client that reads beside one that does not, and a mock that does not terminate | `Held`, `DamEndless`, `C121`, `C121_records`, `C121_requestStop`, `C121_reading`, `C121_waits` |
| `Props/Wake` | a Fetch that waits and records that come | `C122_wakes_partial`, `C122_exchange_partial`, `C122_answer_partial`, `C122_false` |
| `Props/Work` | how much there is to do for a request | `C123_work`, `C123_fetch` |
| `Props/Small`, `SmallCases` | small tests | `C124_answered`, `C124_exact`, `C124_all`, `small_case` |
| `Props/Member`, `MemberCases` | members of a group that consume what they are assigned | `C125_receives_partial`, `C125_untold`, `C125_false`, `member_case` |
| `Props/Later` | ListOffsets requests one after the other | `C126_later` |
| `Props/Known` | what clients are told about the existence of partitions | `C127_known`, `C127_returned`, `C127_origin` |
| `Props/Back`, `Props/BackCases` | sending a group back | `C128_back`, `C128_again`, `C128_race` |
| `Props/Count`, `Props/CountCases` | counting posts | `C129_records`, `C129_count`, `C129_exact` |
| `Props/Onward`, `Props/OnwardCases` | committed offsets go back only if they are set back | `C130_read`, `C130_commit` |
| `Props/Tally`, `Props/TallyCases` | a consumer, or a group, receives every post exactly once | `C131_polled`, `C131_exact`, `C131_group` |
| `Props/NoneLost`, `Props/NoneLostCases` | a group receives every post at least once, whichever members stop | `C132` |
| `Props/Tail`, `Props/TailCases` | a consumer that begins at the end receives what is posted from then on | `C133` |
| `Props/Agree`, `Props/AgreeCases` | all consumers of a partition receive the same messages | `C134_content`, `C134_order` |
| `Props/SeekPosts`, `Props/SeekPostsCases` | a consumer that begins at the offset of a time | `C135_partial`, `C135_since_partial`, `C135_false` |
| `Props/Forever`, `Props/ForeverCases` | a consumer that goes on polling receives every post exactly once, and then nothing more | `C136`, `C136_over` |
| `Props/Returns`, `Props/ReturnsCases` | the functions with which a test works on the data return | `C137_steps`, `C137`, `C136_settled` |
| `Props/LockFair`, `Props/LockFairCases` | with mutexes, an endless fair run is one of the mock in which each access to the data is one action | `C138`, `C138_seen`, `C138_free`, `C138_returns` |
| `Props/Exactly`, `Props/ExactlyCases` | the mutexes of the store rule nothing out | `C139`, `C139_iff`, `C139_endless` |
| `Fall` | panics of connections and accept loops: deferred functions, other goroutines going on until the process ends | the steps of `Lifecycle` and two more (C76) |
| `Locks` | the data store in memory: objects, pointers, mutexes | every function of the store is a sequence of single accesses; proved to refine the mock of `Lifecycle` (C63) |
| `Race` | which variable an access reads and writes | C65 |
| `Spec/*` | wire format, client-side parsers, histories, framing, CRC as polynomial division, api list | independent of the model |
| `Props/*` | the property theorems, each with a case that meets its hypotheses | |
| `RepoTests` | the cases of `/repo/encoding_test.go`, evaluated on the model | examples, not proofs of properties |
| other modules | lemmas: codec (`Codec/RoundTrip`, `Codec/Locality`), traces (`Trace`, `Loop`, `Sim`, `Reach`, `Cost`, `Halts`), handlers (`Only`, `Reads`, `Writes`, `FetchRun`, `FetchLive`, `Request`, `Client`), connections (`Conn`), lifecycle (`LifeInv`, `LifeShape`, `LifeSim`), whole mock (`Refine`, `System`, `Callers`, `Serve`), no missing objects (`Safe`), mutexes (`LockLive`), fair runs (`Fair`, `FairEnds`, `LifeNext`, `Apart`, `Live`, `Room`, `Answers`), `CrcPoly`, `History` | |

Two levels are used. A theorem about `Exec w p tr w' p'` is about one goroutine running `p` while others do anything at all. A theorem about `Sys.Run`
is about the whole mock. `Refine.lean` and `System.lean` connect them: every connection of every run of the whole mock is an execution of `handle`
(`Sys.Run.connection`), and the store changes only through the actions of such programs (`Sys.Run.steps`). The theorems with suffix `_mock` state connection
properties for whole runs. Below both is a third level, `Fine.Run` (`Locks.lean`), where a function of the store is not one action but a sequence of accesses
between `Lock` and `Unlock`; every such run is a run of the whole mock (`C63_atomic`), so all theorems about `Sys.Run` hold for it.

## What is modelled

* `encoder.go`, `decoder.go`: all functions used by the mock; all types the codec distinguishes; panics.
* `datastore.go`, `fetch.go`, `list_offsets.go`, `offset_commit.go`, `offset_fetch.go`, `metadata.go`, `find_coordinator.go`, `join_group.go`, `sync_group.go`,
  `heartbeat.go`, `leave_group.go`, `api_versions.go`, `api-keys.go`, `kafka-errors.go` (the one error used).
* `kafka-client.go`: `handle`, `dispatcher`, `isConnected` (what the socket reports is arbitrary); `inbound-utils.go`, `kafka-message.go`, `net-utils.go`.
* `kafka-mock.go`: all exported functions and the accept loop.

## What is not modelled

* Logging (C72 counts the accesses of `km.l` made for it), formatting of error messages, `kafkaClient.String`.
* `kafkaClient.Close` (the mock never calls it) and `outbound-utils.go` (not used) are modelled by themselves only, for C86 (`CloseClient.lean`) and C85 (`Outbound.lean`). In
  `CloseClient.lean` the rest of the mock is an environment that may do anything to the store; that a panic ends the process is left out (there are more runs).
* The latency hook of the repository's own tests (`kafka-client.go:89-91`), except in `Latency.lean`: by C84 it adds no behaviour.
* What `isConnected` does to the socket beside looking for a byte: `File` duplicates the descriptor and `Fd` makes it blocking (`kafka-client.go:250-253`). The
  duplicate is closed by a finalizer. `isConnected` is called after a write has failed only.
* Wall-clock durations other than through `time.Now` and `time.Sleep`. Fairness of the scheduler is assumed where a theorem says so (`KM.Endless`: C68, C70 and
  the `_mock` theorems of C36 and C49); elsewhere termination is stated as a bound on the number of actions or as the absence of infinite executions.
* Memory exhaustion. (The sizes given to `reflect.MakeSlice`, `decoder.go:519`, are modelled in `Alloc`; what the runtime does with them is not.)
* The Go memory model beyond what C65 and C72 say: runs are sequences of accesses, each of which is atomic. Where two goroutines race (C65: ListOffsets and SyncGroup
  with anything that writes), the code may behave in ways the main model does not have: there an unlocked read of a record, and an unlocked iteration over a map, are one
  access each. What they can do when they are not is in `Words` (C99) and `Ranges` (C100), for one partition and for the maps by themselves, with single loads and stores that all
  goroutines see in one order; weaker memory is not modelled.
* What goroutines do after a panic, except in `Fall.lean` (C76): in `Sys` a panic outside the callers' goroutines ends the process at once.
* TCP. A `Read` may give any non-empty bytes (at most 8192), a timeout or an error; a `Write` may fail at any time. In `Net` (C106) there are clients at the other ends: a
  `Read` gives bytes that the client has sent, in order, and what is written reaches the client in order; that TCP does this is assumed. In `Dial` (C119) clients connect to a listener:
  its queue is unlimited and first come, first served, and `Close` of the listener closes the connections in it; that the kernel does this is assumed. A `Write` ends at once in all modules but `Props/Dam` (writes that wait for room: C121); what is said elsewhere of functions that return or goroutines that end (C49, C68, C70, C102, C117 to C119) supposes that clients read, or that their connections fail (`C121_reading`).
* Typed nil pointers of type `*net.OpError` as errors.

## Disagreements: properties that are false of the code

For each the negation is proved by a witness, and what does hold is proved in a theorem with suffix `_partial`.

| property | why | witness |
|---|---|---|
| C07 | string lengths are written as int16 and wrap; no string of 32768 bytes or more is read back, and nothing beyond 4096 bytes | `C07_false` |
| C08 | the decoder ignores the compact annotation of integers and strings; the encoder does not write an annotated pointer to a string | `C08_false`, `C08_false_string`, `C08_false_pointer` |
| C09 | setting a struct field from a null array panics | `C09_null_array_in_struct_panics` |
| C10 | tag numbers are cut to 32 bits | `C10_false` |
| C17 | OffsetCommit has committed before surplus bytes are noticed | `C17_false_commit_surplus` |
| C18 | requests beyond the 4096-byte buffer are rejected; SyncGroup with assignments is rejected | `C18_false_*` |
| C31 | the timestamp reported is that of the record before the offset | `C31_false` |
| C33 | with several partitions under one topic, a partition gets another one's records, up to the other one's limit (C35) | `C33_false` |
| C34 | with several partitions under one topic, a consumer that follows the high watermarks misses records (C35) | `C34_false` |
| C35 | the answer for the n-th topic is taken from the n-th partition fetched | `C35_false` |
| C36 | a record that does not fit keeps the loop running (`more` is set) | `C36_false`, `C36_oversize_never_returns` |
| C37 | negative offsets, topics without partitions | `C37_false_*` |
| C40 | the size includes offset and size field | `C40_false` |
| C44 | partition 2 is reported for every topic, whatever exists | `C44_false` |
| C45 | partition numbers are truncated to 32 bits | `C45_numbers_collide` |
| C47 | a connection goroutine signs off before it unlocks the mutex | `C47_false` |
| C49 | a connection busy with an oversize Fetch never ends | `C49_false` |
| C50 | the close callback uses the shared variable `cxnNumber` | `C50_false` |
| C51 | a RequestStop that overlaps a Start may cancel the new context, and a second one may cancel it again | `C51_false` |
| C53 | the store keeps the caller's slices | `C53_false` |
| C54 | a reset wrapped otherwise than by the net package is not recognised | `C54_false` |
| C55 | CRC-32C is used where message format 1 has CRC-32 (IEEE) | `C55_false` |
| C58 | SimplePost reads the clock before it takes the lock | `C58_false` |
| C59, C60 | as C35: with two partitions of a topic in one Fetch, the second is answered with the records of the first | `C59_false`, `C60_false` |
| C61 | lengths of compact types are written and read as signed (zigzag) numbers, the protocol has unsigned ones; no supported API version uses them | `C61_false` |
| C62 | a null array in a struct is written but cannot be read (C09) | `C62_false` |
| C65 | ListOffsets and SyncGroup read the store without locking | `C65_false_list_offsets`, `C65_false_sync_group` |
| C66 | `isConnected` returns `err != nil` (`kafka-client.go:257`): a reset connection counts as connected, and one with unread input as gone | `C66_false` |
| C67 | MinBytes is not used; the early answer may be empty for the same reason as C35 | `C67_false_minimum`, `C67_false_empty` |
| C68 | as C36: a Fetch that finds a record too big for it looks for ever, and WaitForTermination waits for it | `C68_false` |
| C69 | Restart increments a wait group that another goroutine has been woken from in WaitForTermination and has not left: sync panics | `C69_false` |
| C70 | as C36: a Fetch that finds a record too big for it is never answered | `C70_false` |
| C72 | Start assigns `km.l`, `km.cancelFn`, `km.listener` while a call that overlaps with it reads them; RequestStop that overlaps with Start does not wait for the accept loop | `C72_false_restart`, `C72_false_listener` |
| C73 | the handlers go from partition to partition and look at each on its own: the answer for several partitions need not have been right at any one moment | `C73_false` |
| C75 | a request that cannot be decoded or has an unsupported key or version panics in the connection's goroutine; nothing recovers | `C75_false` |
| C76 | the deferred function of `run` waits for the connections also after a panic | `C76_false`, `C76_serves` |
| C77 | `MakeSlice` reserves room for the announced number of elements before any is read | `C77_false`, `C77_false_fetch` |
| C78 | Fetch answers error code 0 for a partition that does not exist, with the requested offset as high watermark | `C78_false` |
| C79 | JoinGroup gives everybody member id `1`; SyncGroup assigns everybody all partitions | `C79_false` |
| C80 | when a read finds that the client has closed the connection, `handle` returns without closing its own end | `C80_false` |
| C81 | the controller is always 500 and replicas and in-sync replicas are always `[1]`; the only broker listed is 100 | `C81_false` |
| C82 | a null array of topics sets a slice from a typed nil, which panics | `C82_false` |
| C83 | Fetch writes message sets of magic 1, which have no headers | `C83_false`, `C83_unseen` |
| C85 | `kafkaResponse.Write` (not used) has its own nil strings and bytes, compact strings and array lengths, and no booleans | `C85_arrays_false`, `C85_false` |
| C86 | `kc.stopping` is looked at after reads only, so that requests in `kc.inbound` are begun after `Close` has waited, or while it is woken; `Close` waits for ever for a Fetch that does (C36) | `C86_false`, `C86_hangs` |
| C89 | `Start` starts the goroutine that opens the listener and returns; only `Restart` waits for it | `C89_false` |
| C90 | a commit below the group's offset is acknowledged and ignored, metadata is not stored, and a group without commits reads 0 | `C90_false`, `C90_none` |
| C91 | the high watermark is the requested offset plus the records returned; the offset is not compared with the log | `C91_beyond`, `C91_negative`, `C91_false` |
| C94 | a post creates the partition and adds the record in two locked sections; in between a client reads that the partition exists and is empty. A request about several partitions reads one after the other | `C94_false`, `C94_several_false` |
| C95 | the mock keeps no members of groups: requests of strangers are accepted, and their OffsetCommit takes effect | `C95_false` |
| C96 | Fetch looks for its partitions once; records of a partition that is created while it waits are missing in an answer that has later records of other partitions | `C96_false` |
| C97 | the same: a later record is shown without an earlier one of another topic | `C97_false` |
| C99 | ListOffsets reads `kp.Records` without the mutex; while a record is appended it can see the new length with no element there yet, or with the old array | `C99_false`, `C99_wild`, `C99_exchanged` |
| C100 | SyncGroup iterates over the maps without the mutexes; when a topic or partition is being stored, the runtime ends the process | `C100_false` |
| C101 | JoinGroup and SyncGroup do not look at the protocols and subscriptions a member sends | `C101_false` |
| C102 | a Fetch whose byte limit is less than the size of the next record is never answered (C70) | `C102_false` |
| C117 | as C68: a mock that is stopping, and WaitForTermination does not return | `C117_false` |
| C122 | Fetch looks for the partitions it names only once; one that is created while it waits is not noticed | `C122_false` |
| C125 | Heartbeat never asks a member to join again, so it does not learn of topics and partitions created after its SyncGroup | `C125_untold`, `C125_false` |
| C135 | ListOffsets searches for a time from the end of the log; if timestamps are not in order, records of that time or later that come before an earlier one are left out | `C135_false` |

Other findings, not tied to a property: `Metadata` names controller 500 and replicas [1], which are
not brokers; the delivered message format drops headers and attributes; message sizes of 2^32-4 and more crash the process (`getMessage_panic`);
`requestWg.Done` runs before the panic on a rejected request; `initializeApis` would not widen a version range (the local copy is changed), which is
harmless with one version per key.

## Per property: model and proof

* C01-C03: induction over `Ty`. C01 in both directions: `C01_sharp` finds, for every type outside `Ty.InSync`, a value that does not make the round trip. C04: `BitVec` lemmas, induction on 7-bit groups. C05: base-256 arithmetic. C06-C09: specialisations of the codec.
* C10: sortedness and permutations for the writer, induction for the reader.
* C11, C12: the connection's own actions are cut into rounds (`Conv`), induction over rounds. C13, C14: the same, with the writes.
* C15: decimal formatting is injective. C16: for all permutations of the table and of the version map.
* C17, C18: theorems about the dispatcher on arbitrary bytes; C18 against encoders written in `Spec/Protocol.lean`.
* C19-C28, C46: `History.lean`: log and committed offset after any actions are functions of the posts and commits (`Spec/History.lean`).
* C29-C31: invariant of the backward scan under concurrent posts.
* C32-C37, C52: invariant of the polling loop under interference (`FetchRun`, `FetchLive`); liveness as a bound on the number of actions.
* C38: the handlers contain no action that changes the store (`Only.lean`).
* C39, C55: `CrcPoly.lean` relates the table algorithm to division of polynomials over GF(2) (`Spec/Crc.lean`).
* C40-C44: responses are read back by the client parsers of `Spec/Client.lean`.
* C45: `int32` is injective on int32 values.
* C47, C48, C50, C51: the invariant `Sys.Inv` of all reachable states (`LifeInv.lean`).
* C49: `WindDown.lean` for one connection, lifted in `Props/System.lean`. C53: simulation of the heap model by the value model. C54: induction over error chains.
* C56: `Safe.lean`: a program is safe when every action it makes needs only objects that its earlier actions created; objects are never removed.
* C57, C58: `Callers.lean`: the steps of one caller in a run of the mock are an execution of the program it called.
* C59: `Serve.lean` cuts the run of a connection at the beginning and end of a request; what lies between is an execution of the dispatcher, to which the
  theorems about single requests apply. `Exchange` says that a connection takes up an accepted message (C103) of a request, that all its writes succeed, and that something was written.
* C60: C57, C59 and the laws of `History.lean` between the two.
* C61, C62: induction on the bytes of a number; evaluation of the decoder on a symbolic context.
* C63: simulation. Invariants: maps have no duplicate keys, pointers lead to allocated objects, no object is reached by two names, what a goroutine has found out
  under a mutex stays true while it holds it. C64: the programs know which pointers they have (`Safe.lean`); the accesses between `Lock` and `Unlock` never block.
* C65: every write is made under the mutex that guards the variable; all reads but four are too.
* C66: the own actions of a connection after a write that failed, by induction over its rounds. C67: the invariant of the polling loop of C32-C37, with the
  clock.
* C68: `Fair.lean` has endless runs with a fair scheduler: a goroutine that is ready again and again acts again and again. Ranking arguments for
  connections, accept loops (`FairEnds`) and callers (`Live`), on top of the invariants of runs in which no call overlaps with Start (`Apart`). C69: these
  invariants.
* C70: while a Fetch has room, the number of its actions is bounded (C36), so it is laid down (`Room.lean`); then the connection is at the head of its
  loop, with less input unprocessed, until it reads (`Answers.lean`).
* C71: `Consumer` lists what the consumer may do, each request as an `Exchange` of C59; induction over it.
* C72: the invariants of C47-C51 (who holds `km.mu`, at most one accept loop runs, none while Start prepares the next) and of C69.
* C73: C59 gives, for each partition, a position in the history of the request's run; the moment is found by induction along the run, as the log only grows
  and changes by one record at a time. For OffsetCommit, the actions of the handler that change the store are read off its execution (`effectsBy`).
* C74: a step that closes a listener is made by a caller at line 77, in RequestStop (`step_listener'`); while the accept loop serves, `km.wg` is not zero, so
  WaitForTermination does not get as far as its RequestStop.

* C75: the only crashes of a reachable state are listen, accept and handler (counters never go negative, C48; calls of exported functions contain no panic outside the
  caller, `run_calls`). For a handler, `handle_panic` follows the last round of its loop back to the read, write, size or request that led to the panic.
* C76: `Fall.lean` adds to the whole mock the steps in which a goroutine panics and enters its deferred functions. They keep `Sys.Inv`, so the mutex is still released
  again and again, and the callback of a panicking connection comes to its end. An accept loop waits for its connections, of which there are no new ones.
* C77: the request types have arrays nested at most twice, every element takes at least one byte, and decoding stops at the first element that is not there. So the
  lengths announced by arrays that are complete add up to at most the bytes read, and at most one array per level of nesting is incomplete.
* C78: from C59, which says for each partition whether it existed when the answer was computed; partitions are never removed (C46).
* C79: from C59 for SyncGroup, and from the constant answers of JoinGroup, Heartbeat and LeaveGroup.
* C80: from the shape of what a connection does (`Conv`): a close is the last thing. The witness is the run of `twoClients`.
* C81, C82: from the response that `metadata_run` (`Writes`) computes for every request.
* C83: from C60. The witness compares two runs that differ in the header only. For all runs: erasing headers (`Bare.lean`) commutes with every action on the store, every handler is its own
  twin under erasure, and so is every step of the system.
* C84: a simulation (`Latency`). The mock without latencies stays at the beginning of the round as long as the other one sleeps; then it lets the same time pass.
* C85: by cases on the type. Both sides are computed; where they differ, the first bytes do. Arrays by induction on the elements; tags: two sorted permutations of tags with different ids are equal.
* C86: an invariant of the client with any number of callers of `Close` (`CInv`): the counter of `kc.requestWg` is the number of requests begun and not ended (from `Tidy`,
  also used for C70). After the first step of a caller `kc.stopping` is set, hence nothing more is received, and the requests begun are
  among those received (C11). For `C86_returns_partial` the program of the client's goroutine is always at one of nine places (`Phase`). After the connection has been closed each round
  of its loop either takes a message from the bytes left over, which become fewer, or ends it. Whoever sleeps has a reason (`Asleep`), and is woken when the reason is gone.
  For `C86_returns_done_partial`: what is left of the program ends in finitely many steps once the server is done (`handle_stoppable`, as for C49), so no request lasts for ever.
* C87: `ApiInit.lean` has the package variables, `apiTableLock`, any number of calls of `NewKafkaMock` and any number of requests. The invariant `ProcInv` says what the holder of
  the mutex has found and done; as long as the variables are incomplete no call has returned, so no request is being served. Each call takes at most 17 steps.
* C88: induction over the requests of the consumer, with C59 for each (as C71).
* C89: the accept loop started by the call is followed (`Rising`): if nobody is in RequestStop, it is initializing or serving with its listener open. Restart returns after the init
  counter is back at 0, so it is serving then. After Start, fairness brings it there.
* C90: C59 for the response, C23 for the value read at its moment, and what a last commit does to `Spec.committed`.
* C91: C59 for the response, and arithmetic: messages returned + requested offset = records seen. The negative offset: no run of `fetch` returns (`fetch_ret`).
* C92: Fetch, ListOffsets and OffsetFetch perform no effect (`Only`), so no moment of the request sees other data than its beginning; then the answers of C59 determine the response.
  The commits of OffsetCommit are those accepted according to the response (C73), applied to the data.
* C93: induction over the session. Each request is a step of the machine by C92 (SyncGroup by C59), because a connection never creates partitions; each call by the actions of its program
  (C19, C28, C57). Whatever changes nothing is skipped.
* C94: every part of an operation is placed at the one event that makes it happen: a post at the locked append, a read at the locked read (C73), a commit at the locked write. The order
  is the order of the places; between two places nothing changes the data, because every change is a place. `legal_of_sorted` is the induction over this order. A whole Fetch has one place, the
  moment of C96 (`C96_reply_partial`); a post to a partition that exists has one, since creating the partition again changes nothing (`create_existing`).
* C95: the four requests are answered the same whoever asks; the accepted half follows from C59 and C79, the refused half is false, with runs in which no request came before.
* C96: the loop of Fetch ends only after a round that found nothing new in any partition. What had been fetched before that round is a prefix of each log, and each log was at some moment
  of the round not longer than that; so at the beginning of the round it was just that, for all partitions at once. A partition that was not found is not looked for again, hence the
  condition that it gets no records, and the witness.
* C97: any moment comes before or after that of C96, and the logs only grow.
* C98: each answer is right at a moment of its request (C73), each post has its place between call and return (C57), and the logs only grow (C46).
* C99: the log of one partition at the level of words (`Words`): the three words of `kp.Records`, the arrays, and goroutines that load and store one word at a time, posts and Fetch
  under the mutex, ListOffsets without. The invariant says what is in memory when nobody stores, and how far a store has come when somebody does. Without the mutex all depends on the
  order of the stores: if the length is stored last and loaded first, all is well, and for each other order there is a run in which it is not.
* C100: the maps with the mark that the runtime sets while an entry is stored (`Ranges`), and SyncGroup's two nested iterations one step at a time. The mark is set only by who has the
  mutex, so only somebody without it can meet it.
* C101: from the exact responses of JoinGroup (C79) and SyncGroup (C59).
* C102: from C70 the request is among those taken up; the step at which this happens is found by induction on the number of steps; with room it is laid down
  again; the dispatcher cannot have returned an error, because the connection would have panicked; so it has written a response. C60 gives the record.
* C103: `Parses` says that whatever a decoding function reads successfully is an encoding of the result (in the sense of `Spec/Loose`); it is closed under the
  combinators the decoder is made of, so it holds for the struct types of the eleven requests by composition. The converse (`accepted_reads`) and `C15` make the
  dispatcher on any bytes equal to the dispatcher on the proper message. Unambiguity is determinism of the decoder.
* C104: the connection closes right after it has found its context cancelled (`close_after_done`, by cases over the rounds of its loop); contexts are cancelled by
  lifecycle steps only, since handlers never do it (`handle_noCancel`); the first such step of the run is the one that tells it.
* C105: by induction over the rounds of the loop the connection's actions are split into segments, one for each message; each is cut out of the run of the whole
  mock and is an `Exchange` by C103. Everything that starts from `Exchange` therefore speaks about all answered messages.
* C106: `Net.Step` puts a stream of bytes in each direction between each client and the mock. The bytes read are a prefix of those sent and the bytes received a prefix of those
  written (`Net.Run.flow`); a prefix of what a connection has written that has an `i`-th message has all of the `i`-th response (`replied`, by induction over the rounds of the loop: a
  response that is begun is written behind its own size, so that no part of it counts as a message); the exchange is cut out of the run as in C105. That responses are below
  4 GiB is a hypothesis about those that the mock has begun to write (`SmallReplies`): the size field of larger ones is wrong (C13).
* C107: a run of `Net` is also one of the mock alone, in which nothing happens while clients send and receive (`NetTimeline.mock`). By `reply_exchange` (C106) the exchange of a
  request lies between the sending of its last byte and the receipt of the response (`seen_inside`); exchanges of one connection follow one another in the order of its requests even
  when the clients pipeline them (`places_ordered`), and all that a connection changes it changes in the exchange of a request it has taken up (`change_placed`). So the hypotheses
  of C94 hold for the inner operations, and its order is one for the outer ones.
* C108: the endless run of `Net` is an endless run of the mock (`NetEndless.endless`), to which C102 applies. A connection that is not told to finish returns to its loop and reads again
  and again (`Working.reads`), so all that the client sends is read in the end (`Working.all_read`), taken up and answered by writes that succeed (`Working.written`), and all that is written is received
  (`Working.all_received`). C106 then says which exchange the response comes from. `Props/DeliveredCases` has a run without end: a record is posted, a client fetches it, and then the
  connection reads, without end, until its deadlines.
* C109: by induction over the polls. Each response is the answer to an exchange (`C106_after`), which has a piece of the log that begins at the offset asked for (`C59_fetch_partial`); the log
  only grows (`C46_kept`), so the pieces join (`slice_add`). Progress is `C108`. For `C109_all`: a Fetch that is sent after the call has returned is answered from a log with the record, so
  the consumer has it after that Fetch at the latest. `Props/PollsCases` has a consumer that polls for ever: the states of the run return after 18 steps (`poll_back`, `cycled`).
* C110: by induction over the run, from the end. An effect of a call belongs to the last call of that caller, and is its first effect since (`call_effect`, from the fact that each call
  changes the data at most once: `post_first`, `reset_first`, `create_first`), so each record gets a call of its own. An effect of a connection is a commit that its client's message names
  (`conn_effect`: `change_served` finds the message, `taken_up` its place in what the client has sent, `C103` what it says, `offsetCommit_only_listed` what that changes). The committed
  offset is 0 or that of one of the effects (`committedFrom_origin`), and is negative only after a negative reset (`committedFrom_neg`).
* C111: by strong induction over the length of the run. A member began at an offset that was 0 or was sent, strictly before, in a commit (`C110_offset_read`); then some member had got there,
  in a shorter run; from there on the member has received the records itself (`C109`). `Props/LeastCases` has a run with two members in which the first is not heard of again after its
  commit; it meets the hypotheses of C110 also.
* C112: by reduction to C93. A connection changes the data only while it serves a request, before it begins to write the response (`change_open`), and the client cannot have received a
  response that has not been begun. So a connection whose client waits for nothing does not change the data (`no_change`), and of a connection that serves a request the changes all fall
  between the start of the request and the response (`OneAtATime.session`, the case `request`). `Props/TurnsCases` has a run with a post, three requests of one client and one of another.
* C113: the exchange of the commit ends before that of the OffsetFetch begins (`C106`, `C106_after`), so the committed offset is at least the one acknowledged (`C60_commits`); it is at most
  the largest that has been sent (`C110_offset_read`). So each member begins where the one before it had got to, and the fetches of all of them are those of one consumer (`Relay.polled`,
  `Polled.join`), for which there is C109. `Props/OnceCases` goes on with the run of C112: another record is posted and the second member fetches it.
* C114: the bounds are read off the specification of each response (C19 to C42), with the store as it is when the response is sent (`answer_size`); stores only grow, so the bounds do
  (`mostBytes_mono`). A message that fits the buffer of the mock has at most 4 KiB, hence `Modest` data keeps every response below 4 GiB (`modest_small`), which is what `SmallReplies`
  in C106 and C109 to C113 asks for.
* C115: by induction on the rounds of the connection loop (`Conv`), a connection that is closed has written a complete response for each request taken up (`closed_answered`), and does nothing
  after that (`closed_last`). With the flow of bytes through the connection (`Net.Run.flow`, `Net.Run.asked`) this is what the client has received and sent.
* C116: a relation between two runs. By C112 each of them is a run of the machine of `Spec/Sequence.lean`; a simulation between two runs of the machine (`same_step`, `same_behaves`) keeps the
  data related (`SameData`) and relates the answers (`SameUse`). `Spec/Same.lean` says what may differ.
* C117: the table is `Spec/Life.lean`; `Mode.Holds` says what the modes are in terms of the state of the mock. Two invariants on top of `LifeInv` (`Started`, `Contexts`) reduce a mode to two facts
  while the manager is in none of the functions (`Managed.holds`); the calls follow from C68 and C69. The statement of C117 is false of the code because of C68: `C117_false`.
* C118: if some client did not receive its responses, the test would never stop the mock, no context would ever be cancelled (`Test.untold`, from `step_tells` of C104), and C108 would apply. That the
  test then ends is C117. `small_of_replies` shows that modest data (C114) also bounds what is written.
* C119: `Dial` adds the clients that connect to a run of `Net`: where each is (in the queue, in the hands of an accept loop, served, closed). `DeskInv` is an invariant of these places; `desk_kind`
  sorts the steps by what they do to them. That the first in the queue does not wait for ever is by fairness of its accept loop; the rest is induction on the place in the queue.
* C120: a simulation (`mute_step`): each step of a run is answered by no step, one step, or a few steps of the mock in which the clients in `Q` say nothing. Their goroutines stay at the beginning of
  the program of a connection; a step of theirs becomes the passing of the time it took; when one returns, its silent counterpart sees the context done or the client gone, and returns. The data of
  the two runs agree but for entries of groups without an offset, which OffsetFetch leaves in a partition and which read as 0 (`Store.sight`). `C120_commits` shows why the client must not commit.
* C121: `DamEndless` adds to a run of `Net` that a goroutine does not act while more lies unread on its connection than there is room for (`Held`). A write is taken to happen when it begins, so every such
  run is a run of `Net`, and all that is proved of these (safety) holds. `Endless`, `NetEndless` and `Orderly` have a parameter `F`, the goroutines to which the scheduler is fair; here these are the
  goroutines that are not stuck for ever (`Flowing`, `DamEndless.net`), and a client that reads is never stuck for ever (`DamEndless.flows`). A connection in its close callback has finished its writes
  (`held_serves`), so `km.mu` becomes free. `C121_waits` repeats a round of a request and its response until there is no room (`dam_rounds`, `first_held`).
* C122: the run of Fetch is cut at an arbitrary moment, in the set-up, at the head of the loop, in a round, or at the end. `Watching` (the partition was found, and Fetch has not moved in it unless it
  has seen a record) holds at every loop head; with a record there it gives `Ready`, from which on there is no sleep; the round in which the moment lies sleeps at most once. For the answer: the last round does not
  sleep (`fetchBody_last_sleeps`), so it lies after the moment, and in it every partition is seen exhausted.
* C123: `Prog.Cost` bounds for the handlers, under the condition `within` that what the store answers is at most what is there at the end (`steps_within`: logs and topics only grow). The cost of a
  sleep is left open, so that one bound for all costs says that there is none. For OffsetFetch the partitions collected in the map are counted (`collected`), whatever the order of `range`.
* C124: `Little B` bounds the data, `Ample B` the limits of the requests. They give `Modest` (C114), that no response reaches 2 GiB (`received_short`), and that all Fetch requests have room
  (`Ample.roomy`: a request that is taken up has been sent), which are the hypotheses of C108 and C109 that are not about the network.
* C125: `small_reply` is C124 with the moments at which the exchange begins and ends; with C59 it gives that the assignment the member reads has every partition that existed before it asked
  (`assigned_all`); for those `C124_all` applies. The connection of the SyncGroup request and those of the polls may differ.
* C126: by C59 each offset is that of a prefix of the log, by C46 the first prefix is part of the second, and the position that `TimeOffset` describes grows with the log and the time.
* C127: `Shown` and `Denied` list the responses from which a client concludes that a partition exists, or does not. The former imply that it exists when the request ends, the latter that it does
  not when it begins (C59, C78). For the origin: connections do no action that creates (`handle_connAct`), and a caller that creates is in one of the three functions (`net_called`, C110).
  Metadata is not among them: it names partition 2 of every topic (C44).
* C128: with C28 the call leaves the offset as given, and every effect after the call began is one of a request that was not answered before (`conn_effect_late`) or of a call that had not
  returned before (`called_since`): so nothing raises the offset or sets another (`later_effects`). C109 then gives the records. `C128_race` is the race that the hypothesis excludes, and that
  a test has to exclude. The repository's TestKafkaCommitOneGoBack does so by waiting for the log line of the response to the commit (kafka-message.go:53).
* C129: `posted_listed` is an induction over a run with its states, with two parts: the records are those of distinct calls (as in C110), and a call that is not among them is one whose caller
  has been inside ever since and has its post still before it (`unposted_step`). A caller is in the last call that it has made (`listed_called`). C59 and C106 carry the length of the log to the
  client's end.
* C130: a reset among the effects of a run belongs to a call that was made in it or was under way (`later_resets`), so none of them goes below the offset read or committed; without such a reset
  the committed offset stays above a bound (`committedFrom_above`). C59 and C106 bring both ends to the clients.
* C131: C109 says that the messages are the first records of the log, C129 that the records of the log come from distinct calls and that the calls that returned come first; the last fetch
  reads at least up to the end that the log had when its request was complete (`fetched_at`). For groups, members that take turns fetch as one consumer (`Relay.polled`, C113).
* C132: the last fetch brings its member to the end that the log had when the request was complete (`poll_reaches`); by C111 the group has received all records before that place, and by C129
  the calls that had returned are those of records before it.
* C133: the offset read is the length of the log at a moment between request and response (`EndRead.between`, from C59 and C106); the rest is counting in the list of calls of C129.
* C134: by C109 the messages of both consumers are records of the one log, each at its offset.
* C135: the offset read is that of the time in the log of a moment between request and response (`TimeRead.between`, from C59 and C106); when the timestamps are in order, the records before it
  are of earlier times. The rest is as for C133.
* C136: every poll is answered (C109), and of the polls after a moment the request is complete after it, so C131 applies.
* C137: the programs of these calls have no loops, and no action on the data can block; the number of actions is read off the program (`mostOf`). With it the hypothesis of C136 that
  the calls return is gone (`C136_settled`).
* C138: the holder of a mutex can always go on (C64) and makes at most three steps before it unlocks, so every mutex is free again and again; a goroutine makes at most four accesses without
  settling an action (`rank`). The steps that settle nothing become steps in which no time passes (`FNEv.coarse`); what remains is a fair run of the mock with its clients (`NetEndless`).
* C139: when nobody is inside a function of the store, an action is carried out as lock, accesses, unlock, one after the other (`settle`): no access is blocked, and an action on the store has one
  result up to the order of maps (`step_det`). For endless runs these blocks are put one after the other (`place`).

## Seeded errors

`seeded/LOG.jsonl` has one line per edit of the model in a scratch copy: `definition`, `file`, `edit` (`from`, `to`), the `claim` it makes false,
`proofs_broken` (theorems whose proof no longer checks), `failed` (those and all theorems that depend on them), `tightened` (theorems strengthened because they
still held though their claim had become false), `note`.

## Axioms

From `#print axioms` for the 453 theorems in the manifest (namespace `KM.Props`).

* `propext`, `Quot.sound`, `Classical.choice` (C), 332 theorems: `C01_round_trip`, `C01_sharp`, `C02_truncation`, `C03_bounded_local`, `C03_panic_stable`, `C03_tags_bounded_local`, `C04_varuint32`, `C04_varuint64`, `C04_varint32`, `C04_varint64`, `C05_write_big_endian`, `C06_null_vs_empty`, `C06_plain_string_reads_null_as_empty`, `C07_partial`, `C07_transportable_iff`, `C07_length_prefix_iff`, `C07_false`, `C08_partial`, `C08_false`, `C08_false_string`, `C09_partial`, `C09_null_array_in_struct_panics`, `C10_tags_round_trip_partial`, `C10_false`, `C11_framing`, `C11_chunk_independent`, `C11_mock`, `C12_only_when_complete`, `C12_no_further_input`, `C12_mock`, `C13_response`, `C13_split`, `C14_in_order`, `C14_all_answered`, `C14_mock`, `C46_kept`, `C21_log_is_posts`, `C23_offset_is_history`, `C26_offset_fetch_exact`, `C27_read_your_commits`, `C32_fetch_unaltered`, `C33_sizes_partial`, `C33_exact`, `C34_delivers_everything_partial`, `C34_consumer_partial`, `C35_exact`, `C35_own_records_partial`, `C36_completes_partial`, `C36_oversize_never_returns`, `C36_false`, `C36_mock_partial`, `C37_no_crash_partial`, `C52_ends_after_finish`, `C15_dispatch`, `C16`, `C17_no_response`, `C17_truncated`, `C17_unsupported`, `C17_surplus`, `C17_no_effect_partial`, `C18_partial`, `C18_false_large_body`, `C18_false_large_header`, `C18_false_assignments`, `C39_checksum`, `C39_offset_independent`, `C40_size_partial`, `C40_false`, `C41_assignment`, `C41_exact`, `C42_never_leader`, `C42_assignments_rejected`, `C43_leads_here`, `C44_partition_two_partial`, `C44_false`, `C55_false`, `C47_terminated_partial`, `C47_startable`, `C48_never_negative`, `C48_counters`, `C51_context_once_partial`, `C49_one_read`, `C49_only_buffered`, `C49_ends_partial`, `C49_mock`, `C49_mock_new`, `C49_mock_closes`, `C49_mock_ends_partial`, `C54_handler`, `C54_deadline`, `C56_no_nil_mock`, `C56_never_blocked`, `C57_post_takes_effect`, `C58_per_caller_partial`, `C58_one_poster_partial`, `C59_fetch_partial`, `C59_commit`, `C59_list_offsets`, `C59_offset_fetch`, `C59_sync_group`, `C59_false`, `C60_posts_partial`, `C60_latest`, `C60_commits`, `C60_resets`, `C60_created`, `C60_false`, `C61_varint`, `C61_false`, `C62_null_vs_empty_array_partial`, `C62_false`, `C63_no_lost_update`, `C64_progress`, `C65_locked_partial`, `C66_stops`, `C66_dropped_partial`, `C66_connected`, `C66_false`, `C67_data`, `C67_answer_partial`, `C67_minimum_partial`, `C68_requestStop`, `C68_start`, `C68_stopped_partial`, `C68_waitForTermination_partial`, `C68_restart_partial`, `C69_partial`, `C69_started_partial`, `C70_partial`, `C71`, `C71_complete`, `C72_partial`, `C72_registry`, `C73_fetch_partial`, `C73_list_offsets_partial`, `C73_offset_fetch_partial`, `C73_commit_partial`, `C73_false`, `C74_stays_up`, `C75_partial`, `C76_connection`, `C76_partial`, `C77_accepted_partial`, `C77_bounded_partial`, `C78_commit_partial`, `C78_list_offsets_partial`, `C78_offset_fetch_partial`, `C78_fetch_partial`, `C78_false`, `C79_everything_partial`, `C79_join_partial`, `C79_heartbeat_partial`, `C79_false`, `C80_last_partial`, `C80_closed_partial`, `C81_leaders_partial`, `C81_false`, `C82_named_partial`, `C83_rest_partial`, `C83_false`, `C84`, `C84_clients`, `C85_exactly_partial`, `C85_elements_partial`, `C85_arrays_false`, `C86_finished_partial`, `C86_calm_partial`, `C86_returns_partial`, `C86_returns_calm_partial`, `C86_returns_done_partial`, `C86_returns_done_calm_partial`, `C87_lookup`, `C87_list`, `C87_no_race`, `C87_stable`, `C87_returns`, `C88`, `C88_earliest`, `C88_latest`, `C88_time`, `C88_complete`, `C89_start_partial`, `C90_partial`, `C90_last_partial`, `C90_none`, `C90_false`, `C91_watermark_partial`, `C91_beyond`, `C91_negative`, `C91_false`, `C92_fetch`, `C92_list_offsets`, `C92_commit`, `C92_offset_fetch`, `C93_sequential`, `C93_new`, `C94_linearizable_partial`, `C94_false`, `C94_several_false`, `C95_accepted_partial`, `C95_false`, `C96_snapshot_partial`, `C96_reply_partial`, `C96_false`, `C97_order_partial`, `C97_false`, `C98_grows`, `C98_latest`, `C98_again`, `C98_up_to_end`, `C98_post_order`, `C99_log`, `C99_list_iff`, `C99_wild`, `C99_exchanged`, `C100_assigned`, `C101_protocol_partial`, `C101_assigned_partial`, `C101_false`, `C102_partial`, `C102_request_partial`, `C102_delivery_partial`, `C102_example`, `C103`, `C103_answered`, `C103_accepted`, `C103_unambiguous`, `C103_served`, `C103_example`, `C104_told`, `C104_answered`, `C104_served`, `C105`, `C105_exchange`, `C106`, `C106_after`, `C106_order`, `C106_posts`, `C106_modest`, `C107_linearizable`, `C108`, `C108_posts`, `C109`, `C109_progress`, `C109_all`, `C109_modest`, `C110_records`, `C110_read`, `C110_offsets`, `C110_offset_read`, `C110_modest`, `C111`, `C111_committed`, `C111_modest`, `C112`, `C112_modest`, `C113`, `C113_commits`, `C113_exact`, `C113_modest`, `C114`, `C114_wire`, `C114_limits`, `C114_small`, `C114_received`, `C115`, `C115_changes`, `C115_told`, `C116`, `C116_other`, `C117_call_partial`, `C117_between`, `C117_always`, `C117_up`, `C117_stopping_partial`, `C117_false`, `C118_answered`, `C118_answers`, `C118_posts`, `C118_ends`, `C119_one`, `C119_order`, `C119_shut`, `C119_settled`, `C119_served`, `C119_visits`, `C119_test`, `C120`, `C120_commits`, `C121`, `C121_records`, `C121_requestStop`, `C121_reading`, `C121_waits`, `C122_wakes_partial`, `C122_exchange_partial`, `C122_answer_partial`, `C123_work`, `C123_fetch`, `C124_answered`, `C124_exact`, `C124_all`, `C125_receives_partial`, `C125_untold`, `C125_false`, `C126_later`, `C127_known`, `C127_returned`, `C127_origin`, `C128_back`, `C128_again`, `C129_records`, `C129_count`, `C129_exact`, `C130_read`, `C130_commit`, `C131_polled`, `C131_exact`, `C131_group`, `C132`, `C133`, `C134_content`, `C134_order`, `C135_partial`, `C136`, `C136_over`, `C136_settled`, `C137`, `C138`, `C138_free`, `C138_returns`, `C139_endless`.
* `propext`, `Quot.sound` only, 117 theorems: `C01_arrays`, `C05_read_big_endian`, `C08_false_pointer`, `C10_tags_order_independent`, `C19_create_keeps_everything`, `C19_create_idempotent`, `C19_post_keeps_everything`, `C20_record_stable`, `C22_post_isolated`, `C22_commit_isolated`, `C22_reset_isolated`, `C23_state_is_history`, `C24_monotone`, `C24_commits_take_maximum`, `C24_commits_commute`, `C25_commit_answers`, `C25_commit_never_panics`, `C26_offset_fetch_unobservable`, `C28_reset_exact`, `C28_reset_unknown`, `C29_latest_earliest`, `C29_never_panics`, `C30_by_timestamp`, `C30_unique`, `C30_sorted`, `C31_reported_timestamp_partial`, `C31_false`, `C38_read_only`, `C45_partitions_apart_partial`, `C45_numbers_collide`, `C33_false`, `C34_false`, `C35_false`, `C37_false_negative_offset`, `C37_false_no_partitions`, `C15_keys_distinct`, `C15_eleven`, `C17_false_commit_surplus`, `C47_false`, `C50_partial`, `C50_false`, `C51_listener_once`, `C51_before_start`, `C51_stop_then_start`, `C51_false`, `C49_closes`, `C49_new_connection`, `C49_false`, `C46_untouched`, `C53_partial`, `C53_false`, `C54_sound`, `C54_eof_closed`, `C54_partial`, `C54_net`, `C56_no_nil_handler`, `C58_false`, `C61_boolean`, `C61_float_uuid`, `C61_varuint`, `C61_negative_length`, `C63_atomic`, `C64_no_nil`, `C64_one_mutex`, `C64_released`, `C64_none_left`, `C65_accesses`, `C65_false_list_offsets`, `C65_false_sync_group`, `C67_false_minimum`, `C67_false_empty`, `C68_false`, `C69_false`, `C70_false`, `C72_writes`, `C72_reads`, `C72_false_restart`, `C72_false_listener`, `C74_finish`, `C75_false`, `C76_false`, `C76_serves`, `C76_returns`, `C77_false`, `C77_false_fetch`, `C80_false`, `C82_false`, `C83_unseen`, `C85_tags_partial`, `C85_tag_bytes_partial`, `C85_false`, `C86_returned_partial`, `C86_deaf_partial`, `C86_false`, `C86_hangs`, `C89_restart_partial`, `C89_false`, `C99_fetch`, `C99_rest`, `C99_list_partial`, `C100_blame`, `C100_alive_partial`, `C100_moment_false`, `C102_false`, `C103_exact`, `C103_proper`, `C104_example`, `C105_example`, `C117_new`, `C122_false`, `C128_race`, `C135_since_partial`, `C135_false`, `C137_steps`, `C138_seen`, `C139`, `C139_iff`.
* `propext` only: `C54_false`, `C99_false`, `C100_false`, `C117_one`.
