import Verif.Spec.Protocol
/-
Request messages as the mock accepts them. They are the request messages of `Protocol.lean`, except that an absent string (a null client id or null commit
metadata, and an empty string in any other place) may be written with any negative length. Independent of the codec model.
-/
namespace KM.Spec

/-- A set of byte strings. -/
def Lang := Bytes → Prop

/-- A byte string of the first followed by one of the second. -/
def Lang.cat (L M : Lang) : Lang := fun b => ∃ b1 b2, b = b1 ++ b2 ∧ L b1 ∧ M b2

instance : Append Lang := ⟨Lang.cat⟩

/-- Just this byte string. -/
def Lang.only (b : Bytes) : Lang := fun x => x = b

namespace Loose

/-- An INT16 below zero. -/
def absent : Lang := fun b => ∃ n : I16, n.toInt < 0 ∧ b = int16 n

def int32 (v : I32) : Lang := .only (Spec.int32 v)
def int64 (v : I64) : Lang := .only (Spec.int64 v)

/-- A string of a required field. -/
def str (s : Bytes) : Lang := fun b => (ShortStr s ∧ b = Spec.str s) ∨ (s = [] ∧ absent b)

/-- A string that may be null. -/
def nullableStr : Option Bytes → Lang
  | none => absent
  | some s => fun b => ShortStr s ∧ b = Spec.str s

def bytes (s : Bytes) : Lang := fun b => ShortList s ∧ b = Spec.bytes s

/-- One byte string for each element of the list. -/
def items {α : Type} (f : α → Lang) : List α → Lang
  | [] => .only []
  | x :: xs => f x ++ items f xs

def array {α : Type} (f : α → Lang) (xs : List α) : Lang := fun b => ShortList xs ∧ (Lang.only (Spec.int32 (BitVec.ofNat 32 xs.length)) ++ items f xs) b

end Loose

/-- The accepted bodies of a request; compare `Request.body`. -/
def Request.accepted : Request → Lang
  | .fetch q => Loose.int32 q.replicaId ++ (Loose.int32 q.maxWaitMs ++ (Loose.int32 q.minBytes ++
      Loose.array (fun t : FetchTopic => Loose.str t.topic ++
        Loose.array (fun p : FetchPartition => Loose.int32 p.partition ++ (Loose.int64 p.fetchOffset ++ Loose.int32 p.maxBytes)) t.partitions) q.topics))
  | .listOffsets q => Loose.int32 q.replicaId ++
      Loose.array (fun t : ListOffsetsTopic => Loose.str t.name ++
        Loose.array (fun p : ListOffsetsPartition => Loose.int32 p.partitionIndex ++ Loose.int64 p.timestamp) t.partitions) q.topics
  | .metadata topics => Loose.array Loose.str topics
  | .offsetCommit q => Loose.str q.groupId ++ (Loose.int32 q.generationId ++ (Loose.str q.memberId ++ (Loose.int64 q.retentionTimeMs ++
      Loose.array (fun t : CommitTopic => Loose.str t.name ++
        Loose.array (fun p : CommitPartition => Loose.int32 p.partitionIndex ++ (Loose.int64 p.committedOffset ++ Loose.nullableStr p.metadata)) t.partitions) q.topics)))
  | .offsetFetch q => Loose.str q.groupId ++
      Loose.array (fun t : OffsetFetchTopic => Loose.str t.name ++ Loose.array Loose.int32 t.partitionIndexes) q.topics
  | .findCoordinator key => Loose.str key
  | .joinGroup group session rebalance member protocolType protocols =>
      Loose.str group ++ (Loose.int32 session ++ (Loose.int32 rebalance ++ (Loose.str member ++ (Loose.str protocolType ++
      Loose.array (fun p : Bytes × Bytes => Loose.str p.1 ++ Loose.bytes p.2) protocols))))
  | .heartbeat group generation member => Loose.str group ++ (Loose.int32 generation ++ Loose.str member)
  | .leaveGroup group member => Loose.str group ++ Loose.str member
  | .syncGroup group generation member assignments =>
      Loose.str group ++ (Loose.int32 generation ++ (Loose.str member ++
      Loose.array (fun p : Bytes × Bytes => Loose.str p.1 ++ Loose.bytes p.2) assignments))
  | .apiVersions => .only []

/-- The accepted headers; compare `header`. -/
def acceptedHeader (key version : I16) (correlation : I32) (client : Option Bytes) : Lang :=
  Lang.only (int16 key ++ int16 version ++ int32 correlation) ++ Loose.nullableStr client

/-- No string of the request is empty or null. -/
def Request.Full : Request → Prop
  | .fetch q => ∀ t ∈ q.topics, t.topic ≠ []
  | .listOffsets q => ∀ t ∈ q.topics, t.name ≠ []
  | .metadata topics => ∀ t ∈ topics, t ≠ []
  | .offsetCommit q => q.groupId ≠ [] ∧ q.memberId ≠ [] ∧ ∀ t ∈ q.topics, t.name ≠ [] ∧ ∀ p ∈ t.partitions, p.metadata ≠ none
  | .offsetFetch q => q.groupId ≠ [] ∧ ∀ t ∈ q.topics, t.name ≠ []
  | .findCoordinator key => key ≠ []
  | .joinGroup group _ _ member protocolType protocols => group ≠ [] ∧ member ≠ [] ∧ protocolType ≠ [] ∧ ∀ p ∈ protocols, p.1 ≠ []
  | .heartbeat group _ member => group ≠ [] ∧ member ≠ []
  | .leaveGroup group member => group ≠ [] ∧ member ≠ []
  | .syncGroup group _ member assignments => group ≠ [] ∧ member ≠ [] ∧ ∀ p ∈ assignments, p.1 ≠ []
  | .apiVersions => True

end KM.Spec
