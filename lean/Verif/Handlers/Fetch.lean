import Verif.Handlers.Types
import Verif.Crc
/- /repo/fetch.go -/
namespace KM

/-- `newMessageSetV1`, /repo/encoder.go:486-491 -/
def newMessageSetV1 (offset : I64) : MessageSetV1 := { msgs := [], offset := offset, totalSize := 0 }

/-- The message built by `appendMessage`, /repo/encoder.go:494-503. A record pointer is dereferenced; a nil slice has length 0. -/
def MessageV1.ofRecord (offset : I64) (rec : Record) : MessageV1 :=
  let m : MessageV1 :=
    { offset := offset
      messageSize := BitVec.ofNat 32 (34 + (rec.key.getD []).length + (rec.value.getD []).length)
      crc := 0, magicByte := 1, attributes := 0, timestamp := rec.timestamp, key := rec.key, value := rec.value }
  { m with crc := m.computeCrc }

/-- `appendMessage`, /repo/encoder.go:493-515; `none` = returned false. -/
def MessageSetV1.append (ms : MessageSetV1) (rec : Record) (maxSize : Int) : Option MessageSetV1 :=
  let m := MessageV1.ofRecord ms.offset rec
  let newSize := ms.totalSize + m.messageSize.toInt
  if newSize > maxSize then none
  else some { msgs := ms.msgs ++ [m], offset := ms.offset + 1, totalSize := newSize }

/-- /repo/fetch.go:21-25 -/
structure FetchPartition where
  partition : I32
  fetchOffset : I64
  maxBytes : I32
deriving DecidableEq, Repr

/-- /repo/fetch.go:16-19 -/
structure FetchTopic where
  topic : Bytes
  partitions : List FetchPartition
deriving DecidableEq, Repr

/-- /repo/fetch.go:9-14 -/
structure FetchRequest where
  replicaId : I32
  maxWaitMs : I32
  minBytes : I32
  topics : List FetchTopic
deriving DecidableEq, Repr

/-- /repo/fetch.go:37-42 -/
structure FetchRespPartition where
  partitionIndex : I32
  errorCode : I16
  highWatermark : I64
  records : MessageSetV1
deriving DecidableEq, Repr

/-- /repo/fetch.go:32-35 -/
structure FetchRespTopic where
  topic : Bytes
  partitions : List FetchRespPartition
deriving DecidableEq, Repr

/-- /repo/fetch.go:27-30 -/
structure FetchResponse where
  throttleTimeMs : I32
  responses : List FetchRespTopic
deriving DecidableEq, Repr

@[reducible] def fetchPartitionFields : Fields := fld "Partition" .int32 <| fld "FetchOffset" .int64 <| fld "PartitionMaxBytes" .int32 .nil
@[reducible] def fetchTopicFields : Fields := fld "Topic" .string <| fld "Partitions" (.slice (.struct fetchPartitionFields)) .nil
@[reducible] def fetchRequestFields : Fields :=
  fld "ReplicaId" .int32 <| fld "MaxWaitMs" .int32 <| fld "MinBytes" .int32 <| fld "Topics" (.slice (.struct fetchTopicFields)) .nil
@[reducible] def fetchRespPartitionFields : Fields :=
  fld "PartitionIndex" .int32 <| fld "ErrorCode" .int16 <| fld "HighWatermark" .int64 <| fld "Records" (.ptr .messageSetV1) .nil
@[reducible] def fetchRespTopicFields : Fields := fld "Topic" .string <| fld "Partitions" (.slice (.struct fetchRespPartitionFields)) .nil
@[reducible] def fetchResponseTy : Ty := .struct <|
  fld "ThrottleTimeMs" .int32 <| fld "Responses" (.slice (.struct fetchRespTopicFields)) .nil

/-- The decoded Go value as a `FetchRequest`; ranging over a nil slice visits nothing. -/
def FetchRequest.ofDen : fetchRequestFields.den → FetchRequest
  | (rid, mw, mb, ts, ()) =>
    { replicaId := rid, maxWaitMs := mw, minBytes := mb
      topics := (ts.getD []).map fun (name, ps, ()) =>
        { topic := name, partitions := (ps.getD []).map fun (p, o, m, ()) => { partition := p, fetchOffset := o, maxBytes := m } } }

def FetchRequest.toDen (q : FetchRequest) : fetchRequestFields.den :=
  (q.replicaId, q.maxWaitMs, q.minBytes,
    some (q.topics.map fun t => (t.topic, some (t.partitions.map fun p => (p.partition, p.fetchOffset, p.maxBytes, ())), ())), ())

/-- The response value handed to the encoder. -/
def FetchResponse.toDen (q : FetchResponse) : fetchResponseTy.den :=
  (q.throttleTimeMs, some (q.responses.map fun t =>
    (t.topic, some (t.partitions.map fun p => (p.partitionIndex, p.errorCode, p.highWatermark, some p.records, ())), ())), ())

/-- /repo/fetch.go:44-49. `kp = none` is the nil pointer. `offset` is a Go `int`; it is incremented only while below
the length of a slice, so it cannot overflow. -/
structure FetchData where
  kp : Option (Bytes × I32)
  offset : Int
  maxSize : Int
  ms : MessageSetV1
deriving DecidableEq, Repr

/-- /repo/fetch.go:64-72 -/
def fetchSetupPartition (topic : Bytes) (kt : Bool) (par : FetchPartition) : Prog FetchData :=
  let mk (kp : Option (Bytes × I32)) : FetchData :=
    { kp := kp, offset := par.fetchOffset.toInt, maxSize := par.maxBytes.toInt, ms := newMessageSetV1 par.fetchOffset }
  if kt then
    .act (.getPartition topic par.partition) fun found => .ret (mk (if found then some (topic, par.partition) else none))
  else .ret (mk none)

/-- /repo/fetch.go:60-73 -/
def fetchSetup (topics : List FetchTopic) : Prog (List FetchData) :=
  (Prog.forEach (fun t : FetchTopic =>
    .act (.getTopic t.topic) fun kt => Prog.forEach (fetchSetupPartition t.topic kt) t.partitions) topics).map List.flatten

/-- The inner loop, /repo/fetch.go:78-96; the second result is `more`. -/
def fetchPass : List FetchData → Prog (List FetchData × Bool)
  | [] => .ret ([], false)
  | fd :: rest =>
    match fd.kp with
    | none => (fetchPass rest).bind fun (l, more) => .ret (fd :: l, more)
    | some (t, p) =>
      .act (.fetchRecord t p fd.offset) fun
        | none => .panic
        | some none => (fetchPass rest).bind fun (l, more) => .ret (fd :: l, more)
        | some (some rec) =>
          let fd' := match fd.ms.append rec fd.maxSize with
            | none => fd
            | some ms => { fd with ms := ms, offset := fd.offset + 1 }
          (fetchPass rest).bind fun (l, _) => .ret (fd' :: l, true)

/-- Local state of the polling loop. -/
structure FetchSt where
  fds : List FetchData
  hasOne : Bool

/-- One round of the loop of /repo/fetch.go:77-120. The `break` of line 114 leaves the `for` loop. -/
def fetchBody (expiration : Int) (st : FetchSt) : Prog (FetchSt ⊕ List FetchData) :=
  (fetchPass st.fds).bind fun (fds, more) =>
    let hasOne := st.hasOne || more
    if more then .ret (.inl ⟨fds, hasOne⟩)
    else if hasOne then .ret (.inr fds)
    else .act .now fun t =>
      if t > expiration then .ret (.inr fds)
      else .act .isDone fun isClosed =>
        if isClosed then .ret (.inr fds)
        else .act (.sleep 20000000) fun _ => .ret (.inl ⟨fds, hasOne⟩)

/-- The response loop, /repo/fetch.go:126-147: `fds[n]` with one `n` per topic; `none` = index out of range. -/
def fetchRespond : List FetchTopic → List FetchData → Option (List FetchRespTopic)
  | [], _ => some []
  | _ :: _, [] => none
  | t :: ts, fd :: fds => do
    let rest ← fetchRespond ts fds
    return { topic := t.topic
             partitions := t.partitions.map fun par =>
              { partitionIndex := par.partition, errorCode := 0, highWatermark := BitVec.ofInt 64 fd.offset, records := fd.ms } } :: rest

/-- /repo/fetch.go:58-150 -/
def fetch (q : FetchRequest) : Prog FetchResponse :=
  (fetchSetup q.topics).bind fun fds =>
    .act .now fun t =>
      .loop (⟨fds, false⟩ : FetchSt) (fetchBody (t + q.maxWaitMs.toInt * 1000000)) fun fds =>
        match fetchRespond q.topics fds with
        | none => .panic
        | some rs => .ret { throttleTimeMs := 0, responses := rs }

/-- /repo/fetch.go:52-151 -/
def fetchV2 (r : Reader) : Prog HRes :=
  withRequest fetchRequestFields r fun v => (fetch (.ofDen v)).map fun x => some ⟨fetchResponseTy, x.toDen⟩

end KM
