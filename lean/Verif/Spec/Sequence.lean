import Verif.Spec.Broker
import Mathlib.Data.List.Forall2
/-
A mock that is used by one client or test at a time: a machine on the data. Does not refer to the model of the code, except for the types of records, requests and responses.
-/
namespace KM.Spec

/-- One use of the mock: a request with the answer that the client reads, or a call of the test. Partition numbers in calls are Go `int`s. -/
inductive Use where
  | fetch (q : FetchRequest) (answer : List (Bytes × List (I32 × I16 × I64 × List MessageView)))
  | listOffsets (q : ListOffsetsRequest) (answer : List ListOffsetsRespTopic)
  | commit (q : CommitRequest) (answer : CommitResponse)
  | offsetFetch (q : OffsetFetchRequest) (answer : List OffsetFetchRespTopic)
  /-- SyncGroup, with the assignment -/
  | assign (answer : List (Bytes × List I32))
  /-- a request that is not about the data: Metadata, FindCoordinator, JoinGroup, Heartbeat, LeaveGroup, ApiVersions -/
  | other
  /-- SimplePost (`extended = none`) or ExtendedPost with headers and time in nanoseconds -/
  | post (topic : Bytes) (partition : Int) (key value : Option Bytes) (extended : Option (List (Bytes × Option Bytes) × Int))
  /-- CreatePartitionTopics -/
  | create (partition : Int) (topics : List Bytes)
  /-- SetConsumerGroupOffset -/
  | reset (topic : Bytes) (partition : Int) (group : Bytes) (offset : I64)

/-- The data of a new mock. -/
def Data.empty : Data := ⟨fun _ _ => none, fun _ _ _ => 0⟩

/-- A record is added to a partition, which is created if necessary. -/
def Data.post (d : Data) (t : Bytes) (p : I32) (r : Record) : Data :=
  { d with log := fun t' p' => if t' = t ∧ p' = p then some ((d.log t p).getD [] ++ [r]) else d.log t' p' }

/-- Partitions are created where they do not exist. -/
def Data.create (d : Data) (p : I32) (ts : List Bytes) : Data :=
  { d with log := fun t' p' => if t' ∈ ts ∧ p' = p then some ((d.log t' p').getD []) else d.log t' p' }

/-- The offset of a group is set, if the partition exists. -/
def Data.reset (d : Data) (t : Bytes) (p : I32) (g : Bytes) (o : I64) : Data :=
  { d with offset := fun t' p' g' => if (d.log t p).isSome ∧ t' = t ∧ p' = p ∧ g' = g then o else d.offset t' p' g' }

/-- Offsets are committed. -/
def Data.commit (d : Data) (q : CommitRequest) : Data := { d with offset := fun t p g => BitVec.ofInt 64 (commitNext d q t p g) }

/-- One use, between the times `c` and `c'` (in nanoseconds): from the data `d` to the data `d'`. -/
def Use.Step (d : Data) (c : Int) (d' : Data) (c' : Int) : Use → Prop
  | .fetch q x => x = fetchReply d q ∧ d' = d
  | .listOffsets q x => d' = d ∧
      List.Forall₂ (fun (qt : ListOffsetsTopic) (rt : ListOffsetsRespTopic) => rt.name = qt.name ∧
        List.Forall₂ (fun (qp : ListOffsetsPartition) (rp : ListOffsetsRespPartition) => ∃ ns : Int, c ≤ ns ∧ ns ≤ c' ∧
          rp = listReply (d.log qt.name qp.partitionIndex) (BitVec.ofInt 64 (ns / 1000000)) qp) qt.partitions rt.partitions) q.topics x
  | .commit q x => x = commitReply d q ∧ d' = d.commit q
  | .offsetFetch q x => d' = d ∧ (x.map (·.name)).Nodup ∧ (∀ n, n ∈ x.map (·.name) ↔ offsetReply d q n ≠ []) ∧ ∀ rt ∈ x, rt.partitions = offsetReply d q rt.name
  | .assign x => d' = d ∧ (x.map (·.1)).Nodup ∧ (∀ y ∈ x, y.2.Nodup) ∧ ∀ t p, (∃ ps, (t, ps) ∈ x ∧ p ∈ ps) ↔ (d.log t p).isSome
  | .other => d' = d
  | .post t n k v e => ∃ r : Record, r.attributes = 0 ∧ r.key = k ∧ r.value = v ∧ d' = d.post t (BitVec.ofInt 32 n) r ∧
      match e with
      | none => r.headers = [] ∧ ∃ ns, c ≤ ns ∧ ns ≤ c' ∧ r.timestamp = BitVec.ofInt 64 (ns / 1000000)
      | some (hs, ts) => r.headers.Perm hs ∧ r.timestamp = BitVec.ofInt 64 (ts / 1000000)
  | .create n ts => d' = d.create (BitVec.ofInt 32 n) ts
  | .reset t n g o => d' = d.reset t (BitVec.ofInt 32 n) g o

/-- Uses one after the other; time passes. -/
inductive Behaves : Data → Int → List Use → Data → Int → Prop where
  | nil {d : Data} {c c' : Int} (h : c ≤ c') : Behaves d c [] d c'
  | cons {d d1 d' : Data} {c c0 c1 c' : Int} {u : Use} {l : List Use} (h0 : c ≤ c0) (h : u.Step d c0 d1 c1) (hc : c0 ≤ c1) (hl : Behaves d1 c1 l d' c') :
      Behaves d c (u :: l) d' c'

/-- Uses one after the other, each of them between two times of its own: from the data `d` to the data `d'`. -/
inductive Legal : Data → List (Use × Int × Int) → Data → Prop where
  | nil (d : Data) : Legal d [] d
  | cons {d d1 d' : Data} {u : Use} {c c' : Int} {l : List (Use × Int × Int)} (h : u.Step d c d1 c') (hl : Legal d1 l d') : Legal d ((u, c, c') :: l) d'

end KM.Spec
