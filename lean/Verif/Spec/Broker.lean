import Verif.Spec.Protocol
/-
What a mock answers when nobody else uses it: the responses as functions of the data and the request. Does not refer to the model of the code, except for the types of records, requests and responses.
-/
namespace KM.Spec

/-- The data of a mock as its clients can see it: the log of each partition that exists, and the committed offsets. -/
structure Data where
  log : Bytes → I32 → Option (List Record)
  offset : Bytes → I32 → Bytes → I64

/-- A message as a client sees it: offset, timestamp, key, value. -/
abbrev MessageView := I64 × I64 × Option Bytes × Option Bytes

/-- The partitions of a Fetch request, in order. -/
def fetchNamed (q : FetchRequest) : List (Bytes × FetchPartition) := q.topics.flatMap fun t => t.partitions.map fun p => (t.topic, p)

/-- The records of a partition from an offset on. -/
def Data.records (d : Data) (t : Bytes) (par : FetchPartition) : List Record := ((d.log t par.partition).getD []).drop par.fetchOffset.toInt.toNat

/-- The messages of a partition: its records from the requested offset on, with their offsets. -/
def Data.messages (d : Data) (t : Bytes) (par : FetchPartition) : List MessageView :=
  (d.records t par).mapIdx fun i r => (BitVec.ofInt 64 (par.fetchOffset.toInt + i), r.timestamp, r.key, r.value)

/-- The high watermark: the offset after the last message. -/
def Data.highWatermark (d : Data) (t : Bytes) (par : FetchPartition) : I64 := BitVec.ofInt 64 (par.fetchOffset.toInt + (d.records t par).length)

/-- The response to Fetch: per topic its name and per partition number, error code, high watermark and messages. All partitions of the `n`-th topic get what the `n`-th partition of
the request should get: with one partition per topic, their own. -/
def fetchReply (d : Data) (q : FetchRequest) : List (Bytes × List (I32 × I16 × I64 × List MessageView)) :=
  q.topics.zipIdx.map fun (t, n) => (t.topic, t.partitions.map fun par =>
    let (t', par') := ((fetchNamed q)[n]?).getD (t.topic, par)
    (par.partition, 0, d.highWatermark t' par', d.messages t' par'))

/-- The position in the log for a time: behind the last record that is older. -/
def timePosition (log : List Record) (T : Int) : Nat := log.length - (log.reverse.takeWhile fun r => decide (T ≤ r.timestamp.toInt)).length

def stamp (log : List Record) (i : Nat) : I64 := (log[i]?.map (·.timestamp)).getD 0

/-- The answer of ListOffsets for one partition. `now` is the time in milliseconds. -/
def listReply (log : Option (List Record)) (now : I64) (qp : ListOffsetsPartition) : ListOffsetsRespPartition :=
  match log with
  | none => { partitionIndex := qp.partitionIndex, errorCode := 3, timestamp := 0, offset := 0 }
  | some log =>
    if qp.timestamp.toInt = -1 then { partitionIndex := qp.partitionIndex, errorCode := 0, timestamp := now, offset := BitVec.ofNat 64 log.length }
    else if qp.timestamp.toInt = -2 then { partitionIndex := qp.partitionIndex, errorCode := 0, timestamp := stamp log 0, offset := 0 }
    else
      let i := timePosition log qp.timestamp.toInt
      { partitionIndex := qp.partitionIndex, errorCode := 0, timestamp := stamp log (i - 1), offset := BitVec.ofNat 64 i }

/-- The response to OffsetCommit. -/
def commitReply (d : Data) (q : CommitRequest) : CommitResponse :=
  { topics := q.topics.map fun t => { name := t.name, partitions := t.partitions.map fun p =>
      { partitionIndex := p.partitionIndex, errorCode := if (d.log t.name p.partitionIndex).isSome then 0 else 3 } } }

/-- The offsets that a request commits for a partition. -/
def commitsFor (q : CommitRequest) (t : Bytes) (p : I32) : List Int :=
  q.topics.flatMap fun qt => if qt.name = t then (qt.partitions.filter fun qp => qp.partitionIndex = p).map fun qp => qp.committedOffset.toInt else []

/-- The committed offset after OffsetCommit: of an existing partition the highest of the old one and those sent; otherwise the old one. -/
def commitNext (d : Data) (q : CommitRequest) (t : Bytes) (p : I32) (g : Bytes) : Int :=
  if (d.log t p).isSome ∧ q.groupId = g then (commitsFor q t p).foldl max (d.offset t p g).toInt else (d.offset t p g).toInt

/-- The entries of the response to OffsetFetch for a topic: those of the requested partitions that exist, in the order of the request. -/
def offsetReply (d : Data) (q : OffsetFetchRequest) (n : Bytes) : List OffsetFetchRespPartition :=
  q.topics.flatMap fun t => if t.name = n then
    (t.partitionIndexes.filter fun p => (d.log n p).isSome).map fun p => { partitionIndex := p, committedOffset := d.offset n p q.groupId, metadata := none, errorCode := 0 } else []

end KM.Spec
