import Verif.Request
/-
The encoder writes responses as the protocol prescribes.
-/
namespace KM
open Spec

/-- The reflective encoder of a type writes `v` as `b`. -/
abbrev WritesTy (t : Ty) (v : t.den) (b : Bytes) : Prop := encodeObjectWorker t v false false = some b

theorem writesTy_bool (v : Bool) : WritesTy .bool v (Spec.bool v) := by rw [WritesTy, encodeObjectWorker]; cases v <;> rfl
theorem writesTy_int16 (v : I16) : WritesTy .int16 v (Spec.int16 v) := by rw [WritesTy, encodeObjectWorker, int16_eq]
theorem writesTy_int32 (v : I32) : WritesTy .int32 v (Spec.int32 v) := by rw [WritesTy, encodeObjectWorker, int32_eq]; rfl
theorem writesTy_int64 (v : I64) : WritesTy .int64 v (Spec.int64 v) := by rw [WritesTy, encodeObjectWorker, int64_eq]; rfl
theorem writesTy_str (v : Bytes) : WritesTy .string v (Spec.str v) := by rw [WritesTy, encodeObjectWorker, str, int16_eq]; rfl
theorem nullableStr_eq (v : Option Bytes) : nullableStr v = encodeNullableString v := by
  cases v <;> simp only [nullableStr, str, encodeNullableString, int16_eq]
theorem nullableBytes_eq (v : Option Bytes) : nullableBytes v = encodeNullableBytes v := by
  cases v <;> simp only [nullableBytes, bytes, encodeNullableBytes, int32_eq] <;> rfl
theorem writesTy_nullableStr (v : Option Bytes) : WritesTy .nullableString v (Spec.nullableStr v) := by
  rw [WritesTy, encodeObjectWorker, nullableStr_eq]
theorem writesTy_bytes (v : Option Bytes) : WritesTy .bytes v (Spec.nullableBytes v) := by
  rw [WritesTy, encodeObjectWorker, nullableBytes_eq]; rfl

theorem message1_eq (m : MessageV1) : message1 m = encodeMessageV1 m := by
  simp only [message1, encodeMessageV1, int64_eq, int32_eq, nullableBytes_eq, List.append_assoc]; rfl

theorem writesTy_messageSet (v : MessageSetV1) :
    WritesTy (.ptr .messageSetV1) (some v) (Spec.int32 (BitVec.ofInt 32 v.totalSize) ++ v.msgs.flatMap message1) := by
  rw [WritesTy, encodeObjectWorker, encodeObjectWorker, encodeMessageSetV1, int32_eq, funext message1_eq]

theorem encodeItems_writes {α β : Type} (f : β → Option Bytes) (g : α → β) (b : α → Bytes) (xs : List α) (h : ∀ x ∈ xs, f (g x) = some (b x)) :
    encodeItems f (xs.map g) = some (xs.flatMap b) := by
  induction xs with
  | nil => rfl
  | cons x xs ih =>
    simp only [List.map_cons, encodeItems, h x (List.mem_cons_self ..), ih fun y hy => h y (List.mem_cons_of_mem _ hy)]
    rfl

theorem writesTy_array {α : Type} (e : Ty) (g : α → e.den) (b : α → Bytes) (xs : List α) (h : ∀ x ∈ xs, WritesTy e (g x) (b x)) :
    WritesTy (.slice e) (some (xs.map g)) (Spec.array b xs) := by
  rw [WritesTy, encodeObjectWorker]
  simp only [encodeItems_writes (fun x => encodeObjectWorker e x false false) g b xs h, List.length_map, array, int32_eq]
  rfl

abbrev WritesFs (fs : Fields) (v : fs.den) (b : Bytes) : Prop := encodeStruct fs v = some b

theorem writesFs_nil : WritesFs .nil () [] := by rw [WritesFs, encodeStruct]

theorem writesFs_cons {name : String} {t : Ty} {rest : Fields} {v : t.den} {vs : rest.den} {b bs : Bytes} (h : WritesTy t v b)
    (hs : WritesFs rest vs bs) : WritesFs (fld name t rest) (v, vs) (b ++ bs) := by
  have h' : encodeObjectWorker t v (kafkaTags []).1 (kafkaTags []).2 = some b := h
  rw [WritesFs, encodeStruct, h', hs]; rfl

theorem writesTy_struct {fs : Fields} {v : fs.den} {b : Bytes} (h : WritesFs fs v b) : WritesTy (.struct fs) v b := by
  rw [WritesTy, encodeObjectWorker, h]

theorem writesTy_ptr {fs : Fields} {v : fs.den} {b : Bytes} (h : WritesFs fs v b) : WritesTy (.ptr (.struct fs)) (some v) b := by
  rw [WritesTy, encodeObjectWorker, encodeObjectWorker, h]

/-! ### The responses -/

theorem writes_fetch (x : FetchResponse) : encodeObject fetchResponseTy x.toDen = some (Spec.fetchResponse x) := by
  have := writesTy_struct <| writesFs_cons (name := "ThrottleTimeMs") (writesTy_int32 x.throttleTimeMs) <|
    writesFs_cons (name := "Responses") (writesTy_array (.struct fetchRespTopicFields)
      (fun t : FetchRespTopic => (t.topic, some (t.partitions.map fun p => (p.partitionIndex, p.errorCode, p.highWatermark, some p.records, ())), ()))
      (fun t : FetchRespTopic => str t.topic ++
        array (fun p : FetchRespPartition => Spec.int32 p.partitionIndex ++ Spec.int16 p.errorCode ++ Spec.int64 p.highWatermark ++
          (Spec.int32 (BitVec.ofInt 32 p.records.totalSize) ++ p.records.msgs.flatMap message1)) t.partitions) x.responses ?_) writesFs_nil
  · simp only [FetchResponse.toDen, Spec.fetchResponse, List.append_assoc, List.append_nil] at this ⊢
    exact this
  · intro t _
    apply writesTy_struct
    have := writesFs_cons (name := "Topic") (writesTy_str t.topic) <| writesFs_cons (name := "Partitions")
      (writesTy_array (.struct fetchRespPartitionFields)
        (fun p : FetchRespPartition => (p.partitionIndex, p.errorCode, p.highWatermark, some p.records, ()))
        (fun p : FetchRespPartition => Spec.int32 p.partitionIndex ++ Spec.int16 p.errorCode ++ Spec.int64 p.highWatermark ++
          (Spec.int32 (BitVec.ofInt 32 p.records.totalSize) ++ p.records.msgs.flatMap message1)) t.partitions ?_) writesFs_nil
    · simpa only [List.append_assoc, List.append_nil] using this
    · intro p _
      apply writesTy_struct
      have := writesFs_cons (name := "PartitionIndex") (writesTy_int32 p.partitionIndex) <| writesFs_cons (name := "ErrorCode") (writesTy_int16 p.errorCode) <|
        writesFs_cons (name := "HighWatermark") (writesTy_int64 p.highWatermark) <| writesFs_cons (name := "Records") (writesTy_messageSet p.records) writesFs_nil
      simpa only [List.append_assoc, List.append_nil] using this

theorem writes_listOffsets (x : ListOffsetsResponse) : encodeObject listOffsetsResponseTy x.toDen = some (Spec.listOffsetsResponse x) := by
  have := writesTy_ptr <| writesFs_cons (name := "Topics") (writesTy_array (.struct listOffsetsRespTopicFields)
      (fun t : ListOffsetsRespTopic => (t.name, some (t.partitions.map fun p => (p.partitionIndex, p.errorCode, p.timestamp, p.offset, ())), ()))
      (fun t : ListOffsetsRespTopic => str t.name ++
        array (fun p : ListOffsetsRespPartition => Spec.int32 p.partitionIndex ++ Spec.int16 p.errorCode ++ Spec.int64 p.timestamp ++ Spec.int64 p.offset)
          t.partitions) x.topics ?_) writesFs_nil
  · simp only [ListOffsetsResponse.toDen, Spec.listOffsetsResponse, List.append_assoc, List.append_nil] at this ⊢
    exact this
  · intro t _
    apply writesTy_struct
    have := writesFs_cons (name := "Name") (writesTy_str t.name) <| writesFs_cons (name := "Partitions")
      (writesTy_array (.struct listOffsetsRespPartitionFields)
        (fun p : ListOffsetsRespPartition => (p.partitionIndex, p.errorCode, p.timestamp, p.offset, ()))
        (fun p : ListOffsetsRespPartition => Spec.int32 p.partitionIndex ++ Spec.int16 p.errorCode ++ Spec.int64 p.timestamp ++ Spec.int64 p.offset)
        t.partitions ?_) writesFs_nil
    · simpa only [List.append_assoc, List.append_nil] using this
    · intro p _
      apply writesTy_struct
      have := writesFs_cons (name := "PartitionIndex") (writesTy_int32 p.partitionIndex) <| writesFs_cons (name := "ErrorCode") (writesTy_int16 p.errorCode) <|
        writesFs_cons (name := "Timestamp") (writesTy_int64 p.timestamp) <| writesFs_cons (name := "Offset") (writesTy_int64 p.offset) writesFs_nil
      simpa only [List.append_assoc, List.append_nil] using this

theorem writes_commit (x : CommitResponse) : encodeObject commitResponseTy x.toDen = some (Spec.commitResponse x) := by
  have := writesTy_ptr <| writesFs_cons (name := "Topics") (writesTy_array (.struct commitRespTopicFields)
      (fun t : CommitRespTopic => (t.name, some (t.partitions.map fun p => (p.partitionIndex, p.errorCode, ())), ()))
      (fun t : CommitRespTopic => str t.name ++
        array (fun p : CommitRespPartition => Spec.int32 p.partitionIndex ++ Spec.int16 p.errorCode) t.partitions) x.topics ?_) writesFs_nil
  · simp only [CommitResponse.toDen, Spec.commitResponse, List.append_assoc, List.append_nil] at this ⊢
    exact this
  · intro t _
    apply writesTy_struct
    have := writesFs_cons (name := "Name") (writesTy_str t.name) <| writesFs_cons (name := "Partitions")
      (writesTy_array (.struct commitRespPartitionFields) (fun p : CommitRespPartition => (p.partitionIndex, p.errorCode, ()))
        (fun p : CommitRespPartition => Spec.int32 p.partitionIndex ++ Spec.int16 p.errorCode) t.partitions ?_) writesFs_nil
    · simpa only [List.append_assoc, List.append_nil] using this
    · intro p _
      apply writesTy_struct
      have := writesFs_cons (name := "PartitionIndex") (writesTy_int32 p.partitionIndex) <|
        writesFs_cons (name := "ErrorCode") (writesTy_int16 p.errorCode) writesFs_nil
      simpa only [List.append_assoc, List.append_nil] using this

theorem writes_offsetFetch (x : OffsetFetchResponse) : encodeObject offsetFetchResponseTy x.toDen = some (Spec.offsetFetchResponse x) := by
  have := writesTy_ptr <| writesFs_cons (name := "Topics") (writesTy_array (.struct offsetFetchRespTopicFields)
      (fun t : OffsetFetchRespTopic => (t.name, some (t.partitions.map fun p => (p.partitionIndex, p.committedOffset, p.metadata, p.errorCode, ())), ()))
      (fun t : OffsetFetchRespTopic => str t.name ++
        array (fun p : OffsetFetchRespPartition =>
          Spec.int32 p.partitionIndex ++ Spec.int64 p.committedOffset ++ nullableStr p.metadata ++ Spec.int16 p.errorCode) t.partitions) x.topics ?_) writesFs_nil
  · simp only [OffsetFetchResponse.toDen, Spec.offsetFetchResponse, List.append_assoc, List.append_nil] at this ⊢
    exact this
  · intro t _
    apply writesTy_struct
    have := writesFs_cons (name := "Name") (writesTy_str t.name) <| writesFs_cons (name := "Partitions")
      (writesTy_array (.struct offsetFetchRespPartitionFields)
        (fun p : OffsetFetchRespPartition => (p.partitionIndex, p.committedOffset, p.metadata, p.errorCode, ()))
        (fun p : OffsetFetchRespPartition =>
          Spec.int32 p.partitionIndex ++ Spec.int64 p.committedOffset ++ nullableStr p.metadata ++ Spec.int16 p.errorCode) t.partitions ?_) writesFs_nil
    · simpa only [List.append_assoc, List.append_nil] using this
    · intro p _
      apply writesTy_struct
      have := writesFs_cons (name := "PartitionIndex") (writesTy_int32 p.partitionIndex) <|
        writesFs_cons (name := "CommittedOffset") (writesTy_int64 p.committedOffset) <|
        writesFs_cons (name := "Metadata") (writesTy_nullableStr p.metadata) <| writesFs_cons (name := "ErrorCode") (writesTy_int16 p.errorCode) writesFs_nil
      simpa only [List.append_assoc, List.append_nil] using this

/-- The Metadata response of /repo/metadata.go:49-60. -/
def metadataFor (port : Nat) (topics : List Bytes) : MetaResponse :=
  { brokers := [{ nodeId := 100, host := lit ['l', 'o', 'c', 'a', 'l', 'h', 'o', 's', 't'], port := BitVec.ofNat 32 port, rack := none }]
    controllerId := 500
    topics := topics.map fun t =>
      { errorCode := 0, name := t, isInternal := false
        partitions := [{ errorCode := 0, partitionIndex := 2, leaderId := 100, replicas := [1], isr := [1] }] } }

theorem writes_metadata (port : Nat) (topics : List Bytes) :
    encodeObject metadataResponseTy (KM.metadataResponse port { topics := topics }) = some (Spec.metadataResponse (metadataFor port topics)) := by
  have := writesTy_ptr <| writesFs_cons (name := "Brokers") (writesTy_array (.struct brokerFields)
      (fun b : Broker => (b.nodeId, b.host, b.port, b.rack, ()))
      (fun b : Broker => Spec.int32 b.nodeId ++ str b.host ++ Spec.int32 b.port ++ nullableStr b.rack) (metadataFor port topics).brokers ?_) <|
    writesFs_cons (name := "ControllerId") (writesTy_int32 500) <|
    writesFs_cons (name := "Topics") (writesTy_array (.struct metadataTopicFields)
      (fun t : MetaTopic => (t.errorCode, t.name, t.isInternal,
        some (t.partitions.map fun p => (p.errorCode, p.partitionIndex, p.leaderId, some (p.replicas.map id), some (p.isr.map id), ())), ()))
      (fun t : MetaTopic => Spec.int16 t.errorCode ++ str t.name ++ Spec.bool t.isInternal ++
        array (fun p : MetaPartition => Spec.int16 p.errorCode ++ Spec.int32 p.partitionIndex ++ Spec.int32 p.leaderId ++ array Spec.int32 p.replicas ++
          array Spec.int32 p.isr) t.partitions) (metadataFor port topics).topics ?_) writesFs_nil
  · have e : KM.metadataResponse port { topics := topics } = some (some ((metadataFor port topics).brokers.map
        fun b : Broker => (b.nodeId, b.host, b.port, b.rack, ())), 500, some ((metadataFor port topics).topics.map
        fun t : MetaTopic => (t.errorCode, t.name, t.isInternal,
          some (t.partitions.map fun p => (p.errorCode, p.partitionIndex, p.leaderId, some (p.replicas.map id), some (p.isr.map id), ())), ())), ()) := by
      simp [KM.metadataResponse, metadataFor, Function.comp_def, kLeaderNode]
    rw [e]
    simp only [Spec.metadataResponse, List.append_assoc, List.append_nil] at this ⊢
    exact this
  · intro b _
    apply writesTy_struct
    have := writesFs_cons (name := "NodeId") (writesTy_int32 b.nodeId) <| writesFs_cons (name := "Host") (writesTy_str b.host) <|
      writesFs_cons (name := "Port") (writesTy_int32 b.port) <| writesFs_cons (name := "Rack") (writesTy_nullableStr b.rack) writesFs_nil
    simpa only [List.append_assoc, List.append_nil] using this
  · intro t _
    apply writesTy_struct
    have := writesFs_cons (name := "ErrorCode") (writesTy_int16 t.errorCode) <| writesFs_cons (name := "Name") (writesTy_str t.name) <|
      writesFs_cons (name := "IsInternal") (writesTy_bool t.isInternal) <| writesFs_cons (name := "Partitions")
      (writesTy_array (.struct metadataPartitionFields)
        (fun p : MetaPartition => (p.errorCode, p.partitionIndex, p.leaderId, some (p.replicas.map id), some (p.isr.map id), ()))
        (fun p : MetaPartition => Spec.int16 p.errorCode ++ Spec.int32 p.partitionIndex ++ Spec.int32 p.leaderId ++ array Spec.int32 p.replicas ++
          array Spec.int32 p.isr) t.partitions ?_) writesFs_nil
    · simpa only [List.append_assoc, List.append_nil] using this
    · intro p _
      apply writesTy_struct
      have := writesFs_cons (name := "ErrorCode") (writesTy_int16 p.errorCode) <| writesFs_cons (name := "PartitionIndex") (writesTy_int32 p.partitionIndex) <|
        writesFs_cons (name := "LeaderId") (writesTy_int32 p.leaderId) <|
        writesFs_cons (name := "ReplicaNodes") (writesTy_array .int32 id Spec.int32 p.replicas fun x _ => writesTy_int32 x) <|
        writesFs_cons (name := "IsrNodes") (writesTy_array .int32 id Spec.int32 p.isr fun x _ => writesTy_int32 x) writesFs_nil
      simpa only [List.append_assoc, List.append_nil] using this

/-- The FindCoordinator response of /repo/find_coordinator.go:26-30. -/
def coordinatorFor (port : Nat) : CoordinatorResponse :=
  { errorCode := 0, nodeId := 100, host := lit ['l', 'o', 'c', 'a', 'l', 'h', 'o', 's', 't'], port := BitVec.ofNat 32 port }

theorem writes_findCoordinator (port : Nat) :
    encodeObject findCoordinatorResponseTy (KM.findCoordinatorResponse port) = some (Spec.findCoordinatorResponse (coordinatorFor port)) := by
  have := writesTy_ptr <| writesFs_cons (name := "ErrorCode") (writesTy_int16 0) <| writesFs_cons (name := "NodeId") (writesTy_int32 100) <|
    writesFs_cons (name := "Host") (writesTy_str (coordinatorFor port).host) <| writesFs_cons (name := "Port") (writesTy_int32 (BitVec.ofNat 32 port)) writesFs_nil
  simp only [Spec.findCoordinatorResponse, coordinatorFor, List.append_assoc, List.append_nil] at this ⊢
  exact this

/-- The JoinGroup response of /repo/join_group.go:43-50. -/
def joinAnswer : JoinResponse :=
  { errorCode := 0, generationId := 0, protocolName := lit ['r', 'o', 'u', 'n', 'd', 'r', 'o', 'b', 'i', 'n'], leader := lit ['m', 'e']
    memberId := lit ['1'], members := [(lit ['y', 'o', 'u'], none)] }

theorem writes_joinGroup : encodeObject joinGroupResponseTy KM.joinGroupResponse = some (Spec.joinGroupResponse joinAnswer) := by
  have := writesTy_ptr <| writesFs_cons (name := "ErrorCode") (writesTy_int16 0) <| writesFs_cons (name := "GenerationId") (writesTy_int32 0) <|
    writesFs_cons (name := "ProtocolName") (writesTy_str joinAnswer.protocolName) <| writesFs_cons (name := "Leader") (writesTy_str joinAnswer.leader) <|
    writesFs_cons (name := "MemberId") (writesTy_str joinAnswer.memberId) <|
    writesFs_cons (name := "Members") (writesTy_array (.struct (fld "MemberId" .string <| fld "Metadata" .bytes .nil))
      (fun m : Bytes × Option Bytes => (m.1, m.2, ())) (fun m : Bytes × Option Bytes => str m.1 ++ nullableBytes m.2) joinAnswer.members ?_) writesFs_nil
  · simp only [Spec.joinGroupResponse, joinAnswer, List.append_assoc, List.append_nil] at this ⊢
    exact this
  · intro m _
    apply writesTy_struct
    have := writesFs_cons (name := "MemberId") (writesTy_str m.1) <| writesFs_cons (name := "Metadata") (writesTy_bytes m.2) writesFs_nil
    simpa only [List.append_assoc, List.append_nil] using this

theorem writes_errorCode : encodeObject errorCodeResponseTy (some (0, ())) = some (Spec.int16 0) := by
  have := writesTy_ptr <| writesFs_cons (name := "ErrorCode") (writesTy_int16 0) writesFs_nil
  rw [List.append_nil] at this
  exact this

theorem writes_memberAssignment (mpas : List (Bytes × List I32)) :
    encodeObject memberAssignmentTy (KM.memberAssignment mpas) = some (Spec.memberAssignment 1 mpas none) := by
  have := writesTy_struct <| writesFs_cons (name := "Version") (writesTy_int16 1) <| writesFs_cons (name := "PartitionAssignments")
      (writesTy_array (.struct (fld "Topic" .string <| fld "Partitions" (.slice .int32) .nil))
        (fun t : Bytes × List I32 => (t.1, some (t.2.map id), ())) (fun t : Bytes × List I32 => str t.1 ++ array Spec.int32 t.2) mpas ?_) <|
      writesFs_cons (name := "UserData") (writesTy_bytes none) writesFs_nil
  · simp only [Spec.memberAssignment, KM.memberAssignment, List.append_assoc, List.append_nil, List.map_id] at this ⊢
    exact this
  · intro t _
    apply writesTy_struct
    have := writesFs_cons (name := "Topic") (writesTy_str t.1) <|
      writesFs_cons (name := "Partitions") (writesTy_array .int32 id Spec.int32 t.2 fun x _ => writesTy_int32 x) writesFs_nil
    simpa only [List.append_assoc, List.append_nil] using this

theorem writes_syncGroup (b : Bytes) : encodeObject syncGroupResponseTy (some (0, some b, ())) = some (Spec.syncGroupResponse 0 b) := by
  have := writesTy_ptr <| writesFs_cons (name := "ErrorCode") (writesTy_int16 0) <| writesFs_cons (name := "Assignments") (writesTy_bytes (some b)) writesFs_nil
  simp only [Spec.syncGroupResponse, nullableBytes, List.append_nil] at this ⊢
  exact this

theorem writes_apiVersions (l : List ApiKeyEntry) :
    encodeObject apiVersionsResponseTy (apiVersionsDen l) = some (Spec.apiVersionsResponse 0 (l.map fun e => (e.apiKey, e.minVersion, e.maxVersion))) := by
  have := writesTy_struct <| writesFs_cons (name := "ErrorCode") (writesTy_int16 0) <| writesFs_cons (name := "ApiKeys")
    (writesTy_array (.struct (fld "ApiKey" .int16 <| fld "MinVersion" .int16 <| fld "MaxVersion" .int16 .nil))
      (fun e : I16 × I16 × I16 => (e.1, e.2.1, e.2.2, ())) (fun e : I16 × I16 × I16 => Spec.int16 e.1 ++ Spec.int16 e.2.1 ++ Spec.int16 e.2.2)
      (l.map fun e => (e.apiKey, e.minVersion, e.maxVersion)) ?_) writesFs_nil
  · simp only [Spec.apiVersionsResponse, apiVersionsDen, List.map_map, Function.comp_def, List.append_nil] at this ⊢
    exact this
  · intro e _
    apply writesTy_struct
    have := writesFs_cons (name := "ApiKey") (writesTy_int16 e.1) <| writesFs_cons (name := "MinVersion") (writesTy_int16 e.2.1) <|
      writesFs_cons (name := "MaxVersion") (writesTy_int16 e.2.2) writesFs_nil
    simpa only [List.append_assoc, List.append_nil] using this

/-! ### From request bytes to response bytes -/

/-- The assignment that SyncGroup computes: every topic with its partitions (/repo/sync_group.go:58-66). -/
def assignedPartitions : Prog (List (Bytes × List I32)) :=
  .act .rangeTopics fun names => Prog.forEach (fun name => .act (.rangePartitions name) fun ps => .ret (name, ps)) names

/-- The response body for a request; `none` is an error return. -/
def answer (sv : Server) : Request → Prog (Option Bytes)
  | .fetch q => (fetch q).map fun x => some (Spec.fetchResponse x)
  | .listOffsets q => (listOffsets q).map fun x => some (Spec.listOffsetsResponse x)
  | .metadata topics => .ret (some (Spec.metadataResponse (metadataFor sv.port topics)))
  | .offsetCommit q => (offsetCommit q).map fun x => some (Spec.commitResponse x)
  | .offsetFetch q => (offsetFetch q).map fun x => some (Spec.offsetFetchResponse x)
  | .findCoordinator _ => .ret (some (Spec.findCoordinatorResponse (coordinatorFor sv.port)))
  | .joinGroup .. => .ret (some (Spec.joinGroupResponse joinAnswer))
  | .heartbeat .. => .ret (some (Spec.int16 0))
  | .leaveGroup .. => .ret (some (Spec.int16 0))
  | .syncGroup _ _ _ assignments =>
    if assignments.length ≠ 0 then .ret none
    else assignedPartitions.map fun ts => some (Spec.syncGroupResponse 0 (Spec.memberAssignment 1 ts none))
  | .apiVersions => .act (.orderInt (GoMap.keys sv.versions)) fun order =>
    .ret (some (Spec.apiVersionsResponse 0 ((apiVersionsList sv.versions order).map fun e => (e.apiKey, e.minVersion, e.maxVersion))))

theorem bind_map {α β γ : Type} (p : Prog α) (f : α → β) (g : β → Prog γ) : (p.map f).bind g = p.bind fun x => g (f x) := by
  unfold Prog.map
  rw [Prog.bind_assoc]; rfl

theorem makeMemberAssignment_eq : makeMemberAssignment = assignedPartitions.map fun ts => Spec.memberAssignment 1 ts none := by
  unfold makeMemberAssignment assignedPartitions Prog.map
  simp only [Prog.bind_act]
  congr; funext names
  congr; funext mpas
  rw [writes_memberAssignment]

theorem serve_answer (sv : Server) (req : Request) (c : I32) (n : Nat) (extra : Bytes) :
    ((serve sv req).bind fun
      | none => .ret .err
      | some d => .ret (.ok d ⟨extra⟩)).bind (finish n c) =
    (answer sv req).bind fun
      | none => .ret .err
      | some payload => if (Reader.peek ⟨extra⟩ n).1.length ≠ 0 then .ret .err else send c payload := by
  have hret : ∀ (d : Dyn) (payload : Bytes), encodeObject d.1 d.2 = some payload →
      finish n c (.ok d ⟨extra⟩) = if (Reader.peek ⟨extra⟩ n).1.length ≠ 0 then .ret .err else send c payload := by
    intro d payload h
    simp only [finish, h]
  cases req with
  | fetch q =>
    simp only [serve, answer, Prog.bind_assoc, bind_map, Prog.bind_ret]
    congr; funext x; exact hret _ _ (writes_fetch x)
  | listOffsets q =>
    simp only [serve, answer, Prog.bind_assoc, bind_map, Prog.bind_ret]
    congr; funext x; exact hret _ _ (writes_listOffsets x)
  | metadata topics => exact hret _ _ (writes_metadata sv.port topics)
  | offsetCommit q =>
    simp only [serve, answer, Prog.bind_assoc, bind_map, Prog.bind_ret]
    congr; funext x; exact hret _ _ (writes_commit x)
  | offsetFetch q =>
    simp only [serve, answer, Prog.bind_assoc, bind_map, Prog.bind_ret]
    congr; funext x; exact hret _ _ (writes_offsetFetch x)
  | findCoordinator key => exact hret _ _ (writes_findCoordinator sv.port)
  | joinGroup => exact hret _ _ writes_joinGroup
  | heartbeat => exact hret _ _ writes_errorCode
  | leaveGroup => exact hret _ _ writes_errorCode
  | syncGroup g gen m as =>
    simp only [serve, answer]
    split
    · rfl
    · simp only [makeMemberAssignment_eq, Prog.bind_assoc, bind_map, Prog.bind_ret]
      congr; funext x; exact hret _ _ (writes_syncGroup _)
  | apiVersions =>
    simp only [serve, answer, Prog.bind_act, Prog.bind_ret]
    congr; funext order; exact hret _ _ (writes_apiVersions _)

/-- Answering does not touch the connection. -/
theorem answer_socket (sv : Server) (req : Request) : (answer sv req).Only fun a => a.socket = false := by
  have ha : assignedPartitions.Only fun a => a.socket = false :=
    ⟨rfl, fun _ => Prog.Only.forEach _ fun _ => ⟨rfl, fun _ => trivial⟩⟩
  cases req with
  | fetch q => exact ((fetch_acts q).mono fun _ h => h.2).map _
  | listOffsets q => exact ((listOffsets_acts q).mono fun _ h => h.2).map _
  | offsetCommit q =>
    refine ((offsetCommit_acts q).mono ?_).map _
    rintro a (h | ⟨t, p, o, rfl⟩)
    · exact h.2
    · rfl
  | offsetFetch q =>
    refine ((offsetFetch_acts q).mono ?_).map _
    rintro a (h | ⟨t, p, g, rfl⟩)
    · exact h.2
    · rfl
  | metadata => trivial
  | findCoordinator => trivial
  | joinGroup => trivial
  | heartbeat => trivial
  | leaveGroup => trivial
  | syncGroup =>
    simp only [answer]
    split
    · trivial
    · exact ha.map _
  | apiVersions => exact ⟨rfl, fun _ => trivial⟩

end KM
