import Verif.Spec.Sequence
/-
When two uses of a mock, each in its own run, give the same: the same request with the same answer, or the same call. Does not refer to the model of the code, except for the types of records, requests and responses.
-/
namespace KM.Spec

/-- Two times agree, if times matter. -/
def SameTime (exact : Bool) (a b : I64) : Prop := exact = true → a = b

/-- Two records agree; the headers can be in any order. -/
structure SameRecord (exact : Bool) (r r' : Record) : Prop where
  attributes : r.attributes = r'.attributes
  key : r.key = r'.key
  value : r.value = r'.value
  headers : r.headers.Perm r'.headers
  time : SameTime exact r.timestamp r'.timestamp

/-- The same partitions exist, with the same records in the same order, and the committed offsets are equal. -/
structure SameData (exact : Bool) (d d' : Data) : Prop where
  log : ∀ t p, Option.Rel (List.Forall₂ (SameRecord exact)) (d.log t p) (d'.log t p)
  offset : ∀ t p g, d.offset t p g = d'.offset t p g

/-- The lists have the same length, and the relation holds at each position. -/
inductive All3 {α β γ : Type} (R : α → β → γ → Prop) : List α → List β → List γ → Prop where
  | nil : All3 R [] [] []
  | cons {a : α} {b : β} {c : γ} {as : List α} {bs : List β} {cs : List γ} (h : R a b c) (hs : All3 R as bs cs) : All3 R (a :: as) (b :: bs) (c :: cs)

/-- The answer to Fetch without the times of the messages. -/
def untimed (x : List (Bytes × List (I32 × I16 × I64 × List MessageView))) : List (Bytes × List (I32 × I16 × I64 × List (I64 × Option Bytes × Option Bytes))) :=
  x.map fun t => (t.1, t.2.map fun p => (p.1, p.2.1, p.2.2.1, p.2.2.2.map fun m => (m.1, m.2.2.1, m.2.2.2)))

/-- Two answers of ListOffsets for one partition. The offset for a time depends on the times of the records. The time that comes with the offset of the end (−1) is that of the answer. -/
structure SamePosition (exact : Bool) (qp : ListOffsetsPartition) (rp rp' : ListOffsetsRespPartition) : Prop where
  partitionIndex : rp.partitionIndex = rp'.partitionIndex
  errorCode : rp.errorCode = rp'.errorCode
  offset : exact = true ∨ qp.timestamp.toInt = -1 ∨ qp.timestamp.toInt = -2 → rp.offset = rp'.offset
  time : exact = true → qp.timestamp.toInt ≠ -1 → rp.timestamp = rp'.timestamp

/-- The same request with the same answer, or the same call. With `exact` the times of the messages are equal as well. -/
inductive SameUse (exact : Bool) : Use → Use → Prop where
  | fetch {q : FetchRequest} {x y : List (Bytes × List (I32 × I16 × I64 × List MessageView))} (h : untimed x = untimed y) (he : exact = true → x = y) :
      SameUse exact (.fetch q x) (.fetch q y)
  | listOffsets {q : ListOffsetsRequest} {x y : List ListOffsetsRespTopic} (h : All3 (fun (qt : ListOffsetsTopic) (rt rt' : ListOffsetsRespTopic) => rt.name = rt'.name ∧
      All3 (SamePosition exact) qt.partitions rt.partitions rt'.partitions) q.topics x y) : SameUse exact (.listOffsets q x) (.listOffsets q y)
  | commit (q : CommitRequest) (x : CommitResponse) : SameUse exact (.commit q x) (.commit q x)
  | offsetFetch {q : OffsetFetchRequest} {x y : List OffsetFetchRespTopic} (h : x.Perm y) : SameUse exact (.offsetFetch q x) (.offsetFetch q y)
  | assign {x y : List (Bytes × List I32)} (h : ∀ t p, (∃ ps, (t, ps) ∈ x ∧ p ∈ ps) ↔ ∃ ps, (t, ps) ∈ y ∧ p ∈ ps) : SameUse exact (.assign x) (.assign y)
  | other : SameUse exact .other .other
  | post (t : Bytes) (n : Int) (k v : Option Bytes) (e : Option (List (Bytes × Option Bytes) × Int)) : SameUse exact (.post t n k v e) (.post t n k v e)
  | create (n : Int) (ts : List Bytes) : SameUse exact (.create n ts) (.create n ts)
  | reset (t : Bytes) (n : Int) (g : Bytes) (o : I64) : SameUse exact (.reset t n g o) (.reset t n g o)

end KM.Spec
