import Verif.Handlers.Fetch
import Verif.Handlers.Offsets
/-
The Kafka wire format as a client writes it: the primitive types and the request messages of the eleven supported APIs.
Independent of the codec model; the request structures of the handlers serve as containers of field values only.
-/
namespace KM.Spec

/-- INT16: two's complement, big-endian. -/
def int16 (v : I16) : Bytes := [UInt8.ofNat (v.toNat / 256), UInt8.ofNat v.toNat]

/-- INT32 -/
def int32 (v : I32) : Bytes :=
  [UInt8.ofNat (v.toNat / 256 ^ 3), UInt8.ofNat (v.toNat / 256 ^ 2), UInt8.ofNat (v.toNat / 256), UInt8.ofNat v.toNat]

/-- INT64 -/
def int64 (v : I64) : Bytes :=
  [UInt8.ofNat (v.toNat / 256 ^ 7), UInt8.ofNat (v.toNat / 256 ^ 6), UInt8.ofNat (v.toNat / 256 ^ 5), UInt8.ofNat (v.toNat / 256 ^ 4),
   UInt8.ofNat (v.toNat / 256 ^ 3), UInt8.ofNat (v.toNat / 256 ^ 2), UInt8.ofNat (v.toNat / 256), UInt8.ofNat v.toNat]

/-- STRING: the length as INT16, then the bytes. -/
def str (s : Bytes) : Bytes := int16 (BitVec.ofNat 16 s.length) ++ s

/-- NULLABLE_STRING: null is length -1. -/
def nullableStr : Option Bytes → Bytes
  | none => int16 (-1)
  | some s => str s

/-- BYTES: the length as INT32, then the bytes. -/
def bytes (s : Bytes) : Bytes := int32 (BitVec.ofNat 32 s.length) ++ s

/-- NULLABLE_BYTES: null is length -1. -/
def nullableBytes : Option Bytes → Bytes
  | none => int32 (-1)
  | some s => bytes s

/-- INT8 -/
def int8 (v : I8) : Bytes := [UInt8.ofNat v.toNat]

/-- BOOLEAN -/
def bool (v : Bool) : Bytes := [if v then 1 else 0]

/-- ARRAY: the number of elements as INT32, then the elements. -/
def array {α : Type} (f : α → Bytes) (xs : List α) : Bytes := int32 (BitVec.ofNat 32 xs.length) ++ xs.flatMap f

/-- A string that has a STRING representation. -/
def ShortStr (s : Bytes) : Prop := s.length < 2 ^ 15

/-- A list that has an ARRAY (or BYTES) representation. -/
def ShortList {α : Type} (xs : List α) : Prop := xs.length < 2 ^ 31

/-- A request of one of the supported APIs. -/
inductive Request where
  | fetch (q : FetchRequest)
  | listOffsets (q : ListOffsetsRequest)
  | metadata (topics : List Bytes)
  | offsetCommit (q : CommitRequest)
  | offsetFetch (q : OffsetFetchRequest)
  | findCoordinator (key : Bytes)
  | joinGroup (group : Bytes) (sessionTimeoutMs rebalanceTimeoutMs : I32) (member protocolType : Bytes) (protocols : List (Bytes × Bytes))
  | heartbeat (group : Bytes) (generation : I32) (member : Bytes)
  | leaveGroup (group member : Bytes)
  | syncGroup (group : Bytes) (generation : I32) (member : Bytes) (assignments : List (Bytes × Bytes))
  | apiVersions

/-- Api key and version. -/
def Request.api : Request → I16 × I16
  | .fetch _ => (1, 2)
  | .listOffsets _ => (2, 1)
  | .metadata _ => (3, 1)
  | .offsetCommit _ => (8, 2)
  | .offsetFetch _ => (9, 1)
  | .findCoordinator _ => (10, 0)
  | .joinGroup .. => (11, 1)
  | .heartbeat .. => (12, 0)
  | .leaveGroup .. => (13, 0)
  | .syncGroup .. => (14, 0)
  | .apiVersions => (18, 0)

/-- The request body, in the given version of the Kafka protocol. -/
def Request.body : Request → Bytes
  | .fetch q => int32 q.replicaId ++ int32 q.maxWaitMs ++ int32 q.minBytes ++
      array (fun t : FetchTopic => str t.topic ++
        array (fun p : FetchPartition => int32 p.partition ++ int64 p.fetchOffset ++ int32 p.maxBytes) t.partitions) q.topics
  | .listOffsets q => int32 q.replicaId ++
      array (fun t : ListOffsetsTopic => str t.name ++
        array (fun p : ListOffsetsPartition => int32 p.partitionIndex ++ int64 p.timestamp) t.partitions) q.topics
  | .metadata topics => array str topics
  | .offsetCommit q => str q.groupId ++ int32 q.generationId ++ str q.memberId ++ int64 q.retentionTimeMs ++
      array (fun t : CommitTopic => str t.name ++
        array (fun p : CommitPartition => int32 p.partitionIndex ++ int64 p.committedOffset ++ nullableStr p.metadata) t.partitions) q.topics
  | .offsetFetch q => str q.groupId ++ array (fun t : OffsetFetchTopic => str t.name ++ array int32 t.partitionIndexes) q.topics
  | .findCoordinator key => str key
  | .joinGroup group session rebalance member protocolType protocols =>
      str group ++ int32 session ++ int32 rebalance ++ str member ++ str protocolType ++
      array (fun p : Bytes × Bytes => str p.1 ++ bytes p.2) protocols
  | .heartbeat group generation member => str group ++ int32 generation ++ str member
  | .leaveGroup group member => str group ++ str member
  | .syncGroup group generation member assignments =>
      str group ++ int32 generation ++ str member ++ array (fun p : Bytes × Bytes => str p.1 ++ bytes p.2) assignments
  | .apiVersions => []

/-- Every string and list of the request has a representation. -/
def Request.WellFormed : Request → Prop
  | .fetch q => ShortList q.topics ∧ ∀ t ∈ q.topics, ShortStr t.topic ∧ ShortList t.partitions
  | .listOffsets q => ShortList q.topics ∧ ∀ t ∈ q.topics, ShortStr t.name ∧ ShortList t.partitions
  | .metadata topics => ShortList topics ∧ ∀ t ∈ topics, ShortStr t
  | .offsetCommit q => ShortStr q.groupId ∧ ShortStr q.memberId ∧ ShortList q.topics ∧
      ∀ t ∈ q.topics, ShortStr t.name ∧ ShortList t.partitions ∧ ∀ p ∈ t.partitions, ∀ m ∈ p.metadata, ShortStr m
  | .offsetFetch q => ShortStr q.groupId ∧ ShortList q.topics ∧ ∀ t ∈ q.topics, ShortStr t.name ∧ ShortList t.partitionIndexes
  | .findCoordinator key => ShortStr key
  | .joinGroup group _ _ member protocolType protocols => ShortStr group ∧ ShortStr member ∧ ShortStr protocolType ∧ ShortList protocols ∧
      ∀ p ∈ protocols, ShortStr p.1 ∧ ShortList p.2
  | .heartbeat group _ member => ShortStr group ∧ ShortStr member
  | .leaveGroup group member => ShortStr group ∧ ShortStr member
  | .syncGroup group _ member assignments => ShortStr group ∧ ShortStr member ∧ ShortList assignments ∧
      ∀ p ∈ assignments, ShortStr p.1 ∧ ShortList p.2
  | .apiVersions => True

/-- The request header: api key, api version, correlation id, client id. -/
def header (key version : I16) (correlation : I32) (client : Option Bytes) : Bytes :=
  int16 key ++ int16 version ++ int32 correlation ++ nullableStr client

/-- A whole request message (without the size in front of it). -/
def Request.message (req : Request) (correlation : I32) (client : Option Bytes) : Bytes :=
  header req.api.1 req.api.2 correlation client ++ req.body

/-! ### Responses -/

/-- One message of a message set (format version 1). -/
def message1 (m : MessageV1) : Bytes :=
  int64 m.offset ++ int32 m.messageSize ++ int32 m.crc ++ int8 m.magicByte ++ int8 m.attributes ++ int64 m.timestamp ++
  nullableBytes m.key ++ nullableBytes m.value

def fetchResponse (x : FetchResponse) : Bytes :=
  int32 x.throttleTimeMs ++ array (fun t : FetchRespTopic => str t.topic ++
    array (fun p : FetchRespPartition => int32 p.partitionIndex ++ int16 p.errorCode ++ int64 p.highWatermark ++
      (int32 (BitVec.ofInt 32 p.records.totalSize) ++ p.records.msgs.flatMap message1)) t.partitions) x.responses

def listOffsetsResponse (x : ListOffsetsResponse) : Bytes :=
  array (fun t : ListOffsetsRespTopic => str t.name ++
    array (fun p : ListOffsetsRespPartition => int32 p.partitionIndex ++ int16 p.errorCode ++ int64 p.timestamp ++ int64 p.offset) t.partitions) x.topics

def commitResponse (x : CommitResponse) : Bytes :=
  array (fun t : CommitRespTopic => str t.name ++
    array (fun p : CommitRespPartition => int32 p.partitionIndex ++ int16 p.errorCode) t.partitions) x.topics

def offsetFetchResponse (x : OffsetFetchResponse) : Bytes :=
  array (fun t : OffsetFetchRespTopic => str t.name ++
    array (fun p : OffsetFetchRespPartition =>
      int32 p.partitionIndex ++ int64 p.committedOffset ++ nullableStr p.metadata ++ int16 p.errorCode) t.partitions) x.topics

/-- A broker of a Metadata response. -/
structure Broker where
  nodeId : I32
  host : Bytes
  port : I32
  rack : Option Bytes
deriving DecidableEq, Repr

/-- A partition of a Metadata response. -/
structure MetaPartition where
  errorCode : I16
  partitionIndex : I32
  leaderId : I32
  replicas : List I32
  isr : List I32
deriving DecidableEq, Repr

/-- A topic of a Metadata response. -/
structure MetaTopic where
  errorCode : I16
  name : Bytes
  isInternal : Bool
  partitions : List MetaPartition
deriving DecidableEq, Repr

/-- A Metadata response. -/
structure MetaResponse where
  brokers : List Broker
  controllerId : I32
  topics : List MetaTopic
deriving DecidableEq, Repr

def metadataResponse (x : MetaResponse) : Bytes :=
  array (fun b : Broker => int32 b.nodeId ++ str b.host ++ int32 b.port ++ nullableStr b.rack) x.brokers ++ int32 x.controllerId ++
  array (fun t : MetaTopic => int16 t.errorCode ++ str t.name ++ bool t.isInternal ++
    array (fun p : MetaPartition => int16 p.errorCode ++ int32 p.partitionIndex ++ int32 p.leaderId ++ array int32 p.replicas ++ array int32 p.isr)
      t.partitions) x.topics

/-- A FindCoordinator response. -/
structure CoordinatorResponse where
  errorCode : I16
  nodeId : I32
  host : Bytes
  port : I32
deriving DecidableEq, Repr

def findCoordinatorResponse (x : CoordinatorResponse) : Bytes := int16 x.errorCode ++ int32 x.nodeId ++ str x.host ++ int32 x.port

/-- A JoinGroup response. -/
structure JoinResponse where
  errorCode : I16
  generationId : I32
  protocolName : Bytes
  leader : Bytes
  memberId : Bytes
  members : List (Bytes × Option Bytes)
deriving DecidableEq, Repr

def joinGroupResponse (x : JoinResponse) : Bytes :=
  int16 x.errorCode ++ int32 x.generationId ++ str x.protocolName ++ str x.leader ++ str x.memberId ++
  array (fun m : Bytes × Option Bytes => str m.1 ++ nullableBytes m.2) x.members

/-- The consumer protocol's member assignment: version, partitions by topic, user data. -/
def memberAssignment (version : I16) (topics : List (Bytes × List I32)) (userData : Option Bytes) : Bytes :=
  int16 version ++ array (fun t : Bytes × List I32 => str t.1 ++ array int32 t.2) topics ++ nullableBytes userData

def syncGroupResponse (errorCode : I16) (assignment : Bytes) : Bytes := int16 errorCode ++ bytes assignment

def apiVersionsResponse (errorCode : I16) (entries : List (I16 × I16 × I16)) : Bytes :=
  int16 errorCode ++ array (fun e : I16 × I16 × I16 => int16 e.1 ++ int16 e.2.1 ++ int16 e.2.2) entries

end KM.Spec
