import Verif.Handlers.Types
/- /repo/offset_commit.go, /repo/offset_fetch.go, /repo/list_offsets.go -/
namespace KM

/-- `UnknownTopicOrPartition`, /repo/kafka-errors.go:7-12 -/
def unknownTopicOrPartition : I16 := 3

/-! ### OffsetCommit -/

/-- /repo/offset_commit.go:19-23 -/
structure CommitPartition where
  partitionIndex : I32
  committedOffset : I64
  metadata : Option Bytes
deriving DecidableEq, Repr

/-- /repo/offset_commit.go:14-17 -/
structure CommitTopic where
  name : Bytes
  partitions : List CommitPartition
deriving DecidableEq, Repr

/-- /repo/offset_commit.go:6-12 -/
structure CommitRequest where
  groupId : Bytes
  generationId : I32
  memberId : Bytes
  retentionTimeMs : I64
  topics : List CommitTopic
deriving DecidableEq, Repr

/-- /repo/offset_commit.go:34-37 -/
structure CommitRespPartition where
  partitionIndex : I32
  errorCode : I16
deriving DecidableEq, Repr

/-- /repo/offset_commit.go:29-32 -/
structure CommitRespTopic where
  name : Bytes
  partitions : List CommitRespPartition
deriving DecidableEq, Repr

/-- /repo/offset_commit.go:25-27 -/
structure CommitResponse where
  topics : List CommitRespTopic
deriving DecidableEq, Repr

@[reducible] def commitPartitionFields : Fields :=
  fld "PartitionIndex" .int32 <| fld "CommittedOffset" .int64 <| fld "CommittedMetadata" .nullableString .nil
@[reducible] def commitTopicFields : Fields := fld "Name" .string <| fld "Partitions" (.slice (.struct commitPartitionFields)) .nil
@[reducible] def commitRequestFields : Fields :=
  fld "GroupId" .string <| fld "GenerationIdOrMemberEpoch" .int32 <| fld "MemberId" .string <| fld "RetentionTimeMs" .int64 <|
  fld "Topics" (.slice (.struct commitTopicFields)) .nil
@[reducible] def commitRespPartitionFields : Fields := fld "PartitionIndex" .int32 <| fld "ErrorCode" .int16 .nil
@[reducible] def commitRespTopicFields : Fields := fld "Name" .string <| fld "Partitions" (.slice (.struct commitRespPartitionFields)) .nil
@[reducible] def commitResponseTy : Ty := .ptr <| .struct <| fld "Topics" (.slice (.struct commitRespTopicFields)) .nil

def CommitRequest.ofDen : commitRequestFields.den → CommitRequest
  | (g, gen, mem, ret, ts, ()) =>
    { groupId := g, generationId := gen, memberId := mem, retentionTimeMs := ret
      topics := (ts.getD []).map fun (name, ps, ()) =>
        { name := name, partitions := (ps.getD []).map fun (p, o, m, ()) => { partitionIndex := p, committedOffset := o, metadata := m } } }

def CommitRequest.toDen (q : CommitRequest) : commitRequestFields.den :=
  (q.groupId, q.generationId, q.memberId, q.retentionTimeMs,
    some (q.topics.map fun t => (t.name, some (t.partitions.map fun p => (p.partitionIndex, p.committedOffset, p.metadata, ())), ())), ())

def CommitResponse.toDen (q : CommitResponse) : commitResponseTy.den :=
  some (some (q.topics.map fun t => (t.name, some (t.partitions.map fun p => (p.partitionIndex, p.errorCode, ())), ())), ())

/-- /repo/offset_commit.go:56-77 -/
def commitPartition (group topic : Bytes) (kt : Bool) (par : CommitPartition) : Prog CommitRespPartition :=
  if kt then
    .act (.getPartition topic par.partitionIndex) fun kp =>
      if kp then
        .act (.commit topic par.partitionIndex group par.committedOffset) fun _ =>
          .ret { partitionIndex := par.partitionIndex, errorCode := 0 }
      else .ret { partitionIndex := par.partitionIndex, errorCode := unknownTopicOrPartition }
  else .ret { partitionIndex := par.partitionIndex, errorCode := unknownTopicOrPartition }

/-- /repo/offset_commit.go:46-86 -/
def offsetCommit (q : CommitRequest) : Prog CommitResponse :=
  (Prog.forEach (fun t : CommitTopic =>
    .act (.getTopic t.name) fun kt =>
      (Prog.forEach (commitPartition q.groupId t.name kt) t.partitions).map fun ps =>
        ({ name := t.name, partitions := ps } : CommitRespTopic)) q.topics).map fun ts => { topics := ts }

/-- /repo/offset_commit.go:40-87 -/
def offsetCommitV2 (r : Reader) : Prog HRes :=
  withRequest commitRequestFields r fun v => (offsetCommit (.ofDen v)).map fun x => some ⟨commitResponseTy, x.toDen⟩

/-! ### OffsetFetch -/

/-- /repo/offset_fetch.go:13-16 -/
structure OffsetFetchTopic where
  name : Bytes
  partitionIndexes : List I32
deriving DecidableEq, Repr

/-- /repo/offset_fetch.go:8-11 -/
structure OffsetFetchRequest where
  groupId : Bytes
  topics : List OffsetFetchTopic
deriving DecidableEq, Repr

/-- /repo/offset_fetch.go:27-32 -/
structure OffsetFetchRespPartition where
  partitionIndex : I32
  committedOffset : I64
  metadata : Option Bytes
  errorCode : I16
deriving DecidableEq, Repr

/-- /repo/offset_fetch.go:22-25 -/
structure OffsetFetchRespTopic where
  name : Bytes
  partitions : List OffsetFetchRespPartition
deriving DecidableEq, Repr

/-- /repo/offset_fetch.go:18-20 -/
structure OffsetFetchResponse where
  topics : List OffsetFetchRespTopic
deriving DecidableEq, Repr

@[reducible] def offsetFetchTopicFields : Fields := fld "Name" .string <| fld "PartitionIndexes" (.slice .int32) .nil
@[reducible] def offsetFetchRequestFields : Fields := fld "GroupId" .string <| fld "Topics" (.slice (.struct offsetFetchTopicFields)) .nil
@[reducible] def offsetFetchRespPartitionFields : Fields :=
  fld "PartitionIndex" .int32 <| fld "CommittedOffset" .int64 <| fld "Metadata" .nullableString <| fld "ErrorCode" .int16 .nil
@[reducible] def offsetFetchRespTopicFields : Fields :=
  fld "Name" .string <| fld "Partitions" (.slice (.struct offsetFetchRespPartitionFields)) .nil
@[reducible] def offsetFetchResponseTy : Ty := .ptr <| .struct <| fld "Topics" (.slice (.struct offsetFetchRespTopicFields)) .nil

def OffsetFetchRequest.ofDen : offsetFetchRequestFields.den → OffsetFetchRequest
  | (g, ts, ()) => { groupId := g, topics := (ts.getD []).map fun (name, ps, ()) => { name := name, partitionIndexes := ps.getD [] } }

def OffsetFetchRequest.toDen (q : OffsetFetchRequest) : offsetFetchRequestFields.den :=
  (q.groupId, some (q.topics.map fun t => (t.name, some t.partitionIndexes, ())), ())

def OffsetFetchResponse.toDen (q : OffsetFetchResponse) : offsetFetchResponseTy.den :=
  some (some (q.topics.map fun t =>
    (t.name, some (t.partitions.map fun p => (p.partitionIndex, p.committedOffset, p.metadata, p.errorCode, ())), ())), ())

/-- `data[name] = append(data[name], par)`, /repo/offset_fetch.go:51-56; a partition pointer is (topic, number). -/
def addPartition (data : List (Bytes × List (Bytes × I32))) (name : Bytes) (pi : I32) : List (Bytes × List (Bytes × I32)) :=
  GoMap.set data name ((GoMap.get data name).getD [] ++ [(name, pi)])

/-- /repo/offset_fetch.go:48-58 -/
def offsetFetchPartitions (name : Bytes) : List I32 → List (Bytes × List (Bytes × I32)) → Prog (List (Bytes × List (Bytes × I32)))
  | [], data => .ret data
  | pi :: pis, data =>
    .act (.getPartition name pi) fun found =>
      offsetFetchPartitions name pis (if found then addPartition data name pi else data)

/-- /repo/offset_fetch.go:41-59 -/
def offsetFetchTopics : List OffsetFetchTopic → List (Bytes × List (Bytes × I32)) → Prog (List (Bytes × List (Bytes × I32)))
  | [], data => .ret data
  | rt :: rts, data =>
    .act (.getTopic rt.name) fun kt =>
      if kt then (offsetFetchPartitions rt.name rt.partitionIndexes data).bind fun data => offsetFetchTopics rts data
      else offsetFetchTopics rts data

/-- /repo/offset_fetch.go:64-71 -/
def offsetFetchEntry (group : Bytes) (kp : Bytes × I32) : Prog OffsetFetchRespPartition :=
  .act (.groupCommitted kp.1 kp.2 group) fun off =>
    .act (.partInfo kp.1 kp.2) fun info =>
      .ret { partitionIndex := info.1, committedOffset := off, errorCode := info.2.1, metadata := info.2.2 }

/-- /repo/offset_fetch.go:41-76 -/
def offsetFetch (q : OffsetFetchRequest) : Prog OffsetFetchResponse :=
  (offsetFetchTopics q.topics []).bind fun data =>
    .act (.order (GoMap.keys data)) fun names =>
      (Prog.forEach (fun name =>
        (Prog.forEach (offsetFetchEntry q.groupId) ((GoMap.get data name).getD [])).map fun ps =>
          ({ name := name, partitions := ps } : OffsetFetchRespTopic)) names).map fun ts => { topics := ts }

/-- /repo/offset_fetch.go:35-77 -/
def offsetFetchV1 (r : Reader) : Prog HRes :=
  withRequest offsetFetchRequestFields r fun v => (offsetFetch (.ofDen v)).map fun x => some ⟨offsetFetchResponseTy, x.toDen⟩

/-! ### ListOffsets -/

/-- /repo/list_offsets.go:19-22 -/
structure ListOffsetsPartition where
  partitionIndex : I32
  timestamp : I64
deriving DecidableEq, Repr

/-- /repo/list_offsets.go:14-17 -/
structure ListOffsetsTopic where
  name : Bytes
  partitions : List ListOffsetsPartition
deriving DecidableEq, Repr

/-- /repo/list_offsets.go:9-12 -/
structure ListOffsetsRequest where
  replicaId : I32
  topics : List ListOffsetsTopic
deriving DecidableEq, Repr

/-- /repo/list_offsets.go:33-38 -/
structure ListOffsetsRespPartition where
  partitionIndex : I32
  errorCode : I16
  timestamp : I64
  offset : I64
deriving DecidableEq, Repr

/-- /repo/list_offsets.go:28-31 -/
structure ListOffsetsRespTopic where
  name : Bytes
  partitions : List ListOffsetsRespPartition
deriving DecidableEq, Repr

/-- /repo/list_offsets.go:24-26 -/
structure ListOffsetsResponse where
  topics : List ListOffsetsRespTopic
deriving DecidableEq, Repr

@[reducible] def listOffsetsPartitionFields : Fields := fld "PartitionIndex" .int32 <| fld "Timestamp" .int64 .nil
@[reducible] def listOffsetsTopicFields : Fields := fld "Name" .string <| fld "Parititions" (.slice (.struct listOffsetsPartitionFields)) .nil
@[reducible] def listOffsetsRequestFields : Fields := fld "ReplicaId" .int32 <| fld "Topics" (.slice (.struct listOffsetsTopicFields)) .nil
@[reducible] def listOffsetsRespPartitionFields : Fields :=
  fld "PartitionIndex" .int32 <| fld "ErrorCode" .int16 <| fld "Timestamp" .int64 <| fld "Offset" .int64 .nil
@[reducible] def listOffsetsRespTopicFields : Fields :=
  fld "Name" .string <| fld "Partitions" (.slice (.struct listOffsetsRespPartitionFields)) .nil
@[reducible] def listOffsetsResponseTy : Ty := .ptr <| .struct <| fld "Topics" (.slice (.struct listOffsetsRespTopicFields)) .nil

def ListOffsetsRequest.ofDen : listOffsetsRequestFields.den → ListOffsetsRequest
  | (rid, ts, ()) =>
    { replicaId := rid
      topics := (ts.getD []).map fun (name, ps, ()) =>
        { name := name, partitions := (ps.getD []).map fun (p, t, ()) => { partitionIndex := p, timestamp := t } } }

def ListOffsetsRequest.toDen (q : ListOffsetsRequest) : listOffsetsRequestFields.den :=
  (q.replicaId, some (q.topics.map fun t => (t.name, some (t.partitions.map fun p => (p.partitionIndex, p.timestamp, ())), ())), ())

def ListOffsetsResponse.toDen (q : ListOffsetsResponse) : listOffsetsResponseTy.den :=
  some (some (q.topics.map fun t =>
    (t.name, some (t.partitions.map fun p => (p.partitionIndex, p.errorCode, p.timestamp, p.offset, ())), ())), ())

/-- The backward scan of /repo/list_offsets.go:73-82, with `i` records left to examine: (offset, ts). -/
def scanBack (topic : Bytes) (p : I32) (want : I64) : (i : Nat) → (ts : I64) → Prog (I64 × I64)
  | 0, ts => .ret (0, ts)
  | i + 1, _ =>
    .act (.recordAt topic p (i : Nat)) fun
      | none => .panic
      | some msg =>
        if msg.timestamp.toInt < want.toInt then .ret (BitVec.ofNat 64 (i + 1), msg.timestamp)
        else scanBack topic p want i msg.timestamp

/-- `time.Now().UnixMilli()` of a clock in nanoseconds. -/
def unixMilli (ns : Int) : I64 := BitVec.ofInt 64 (ns / 1000000)

/-- /repo/list_offsets.go:62-84. In line 63 Go does not fix the order of the call of `time.Now` and the reading of `len(kp.Records)`; here the clock is read first (the two are
independent: no theorem relates this timestamp to records). -/
def listOffsetsFound (topic : Bytes) (par : ListOffsetsPartition) : Prog ListOffsetsRespPartition :=
  let p := par.partitionIndex
  if par.timestamp = -1 then
    .act .now fun t => .act (.numRecords topic p) fun n =>
      .ret { partitionIndex := p, errorCode := 0, timestamp := unixMilli t, offset := BitVec.ofNat 64 n }
  else if par.timestamp = -2 then
    .act (.numRecords topic p) fun n =>
      if n = 0 then .ret { partitionIndex := p, errorCode := 0, timestamp := 0, offset := 0 }
      else .act (.recordAt topic p 0) fun
        | none => .panic
        | some msg => .ret { partitionIndex := p, errorCode := 0, timestamp := msg.timestamp, offset := 0 }
  else
    .act (.numRecords topic p) fun n =>
      (scanBack topic p par.timestamp n 0).map fun (off, ts) =>
        { partitionIndex := p, errorCode := 0, timestamp := ts, offset := off }

/-- /repo/list_offsets.go:53-86 -/
def listOffsetsPartition (topic : Bytes) (kt : Bool) (par : ListOffsetsPartition) : Prog ListOffsetsRespPartition :=
  let unknown : ListOffsetsRespPartition :=
    { partitionIndex := par.partitionIndex, errorCode := unknownTopicOrPartition, timestamp := 0, offset := 0 }
  if kt then
    .act (.getPartition topic par.partitionIndex) fun kp => if kp then listOffsetsFound topic par else .ret unknown
  else .ret unknown

/-- /repo/list_offsets.go:47-95 -/
def listOffsets (q : ListOffsetsRequest) : Prog ListOffsetsResponse :=
  (Prog.forEach (fun t : ListOffsetsTopic =>
    .act (.getTopic t.name) fun kt =>
      (Prog.forEach (listOffsetsPartition t.name kt) t.partitions).map fun ps =>
        ({ name := t.name, partitions := ps } : ListOffsetsRespTopic)) q.topics).map fun ts => { topics := ts }

/-- /repo/list_offsets.go:41-96 -/
def listOffsetsV1 (r : Reader) : Prog HRes :=
  withRequest listOffsetsRequestFields r fun v => (listOffsets (.ofDen v)).map fun x => some ⟨listOffsetsResponseTy, x.toDen⟩

end KM
