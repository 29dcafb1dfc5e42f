import Verif.Reads
import Verif.Spec.Api
/-
Requests as a client writes them, through the dispatcher to the handlers' functions on field values.
-/
namespace KM
open Spec

theorem FetchRequest.ofDen_toDen (q : FetchRequest) : FetchRequest.ofDen q.toDen = q := by
  simp [FetchRequest.ofDen, FetchRequest.toDen, Function.comp_def]

theorem ListOffsetsRequest.ofDen_toDen (q : ListOffsetsRequest) : ListOffsetsRequest.ofDen q.toDen = q := by
  simp [ListOffsetsRequest.ofDen, ListOffsetsRequest.toDen, Function.comp_def]

theorem CommitRequest.ofDen_toDen (q : CommitRequest) : CommitRequest.ofDen q.toDen = q := by
  simp [CommitRequest.ofDen, CommitRequest.toDen, Function.comp_def]

theorem OffsetFetchRequest.ofDen_toDen (q : OffsetFetchRequest) : OffsetFetchRequest.ofDen q.toDen = q := by
  simp [OffsetFetchRequest.ofDen, OffsetFetchRequest.toDen, Function.comp_def]

/-- What the server does for a request with these field values; `none` is an error return. -/
def serve (sv : Server) : Request → Prog (Option Dyn)
  | .fetch q => (fetch q).map fun x => some ⟨fetchResponseTy, x.toDen⟩
  | .listOffsets q => (listOffsets q).map fun x => some ⟨listOffsetsResponseTy, x.toDen⟩
  | .metadata topics => .ret (some ⟨metadataResponseTy, metadataResponse sv.port { topics := topics }⟩)
  | .offsetCommit q => (offsetCommit q).map fun x => some ⟨commitResponseTy, x.toDen⟩
  | .offsetFetch q => (offsetFetch q).map fun x => some ⟨offsetFetchResponseTy, x.toDen⟩
  | .findCoordinator _ => .ret (some ⟨findCoordinatorResponseTy, findCoordinatorResponse sv.port⟩)
  | .joinGroup .. => .ret (some ⟨joinGroupResponseTy, joinGroupResponse⟩)
  | .heartbeat .. => .ret (some ⟨errorCodeResponseTy, some (0, ())⟩)
  | .leaveGroup .. => .ret (some ⟨errorCodeResponseTy, some (0, ())⟩)
  | .syncGroup _ _ _ assignments =>
    if assignments.length ≠ 0 then .ret none else makeMemberAssignment.map fun b => some ⟨syncGroupResponseTy, some (0, some b, ())⟩
  | .apiVersions => .act (.orderInt (GoMap.keys sv.versions)) fun order =>
    .ret (some ⟨apiVersionsResponseTy, apiVersionsDen (apiVersionsList sv.versions order)⟩)

/-- The table entry of a request. -/
def Spec.Request.entry : Request → Api
  | .fetch _ => .fetch
  | .listOffsets _ => .listOffsets
  | .metadata _ => .metadata
  | .offsetCommit _ => .offsetCommit
  | .offsetFetch _ => .offsetFetch
  | .findCoordinator _ => .findCoordinator
  | .joinGroup .. => .joinGroup
  | .heartbeat .. => .heartbeat
  | .leaveGroup .. => .leaveGroup
  | .syncGroup .. => .syncGroup
  | .apiVersions => .apiVersions

/-- The Go struct type of a request body and its value. -/
def Spec.Request.value : Request → Option ((fs : Fields) × fs.den)
  | .fetch q => some ⟨fetchRequestFields, q.toDen⟩
  | .listOffsets q => some ⟨listOffsetsRequestFields, q.toDen⟩
  | .metadata topics => some ⟨metadataRequestFields, (some topics, ())⟩
  | .offsetCommit q => some ⟨commitRequestFields, q.toDen⟩
  | .offsetFetch q => some ⟨offsetFetchRequestFields, q.toDen⟩
  | .findCoordinator key => some ⟨findCoordinatorRequestFields, (key, ())⟩
  | .joinGroup g s r m t ps => some ⟨joinGroupRequestFields, (g, s, r, m, t, some (ps.map fun p => (p.1, some p.2, ())), ())⟩
  | .heartbeat g n m => some ⟨heartbeatRequestFields, (g, n, m, ())⟩
  | .leaveGroup g m => some ⟨leaveGroupRequestFields, (g, m, ())⟩
  | .syncGroup g n m as => some ⟨syncGroupRequestFields, (g, n, m, some (as.map fun p => (p.1, some p.2, ())), ())⟩
  | .apiVersions => none

theorem request_reads {req : Request} (h : req.WellFormed) {fs : Fields} {v : fs.den} (hv : req.value = some ⟨fs, v⟩) : ReadsFs fs req.body v := by
  cases req with
  | fetch q =>
    cases hv
    obtain ⟨h1, h2⟩ := h
    have := readsFs_cons (name := "ReplicaId") rfl (readsTy_int32 q.replicaId) <| readsFs_cons (name := "MaxWaitMs") rfl (readsTy_int32 q.maxWaitMs) <|
      readsFs_cons (name := "MinBytes") rfl (readsTy_int32 q.minBytes) <|
      readsFs_cons (name := "Topics")
        rfl (readsTy_array (g := fun t => (t.topic, some (t.partitions.map fun p => (p.partition, p.fetchOffset, p.maxBytes, ())), ())) (.struct fetchTopicFields) rfl
        (fun t : FetchTopic => str t.topic ++
          array (fun p : FetchPartition => Spec.int32 p.partition ++ Spec.int64 p.fetchOffset ++ Spec.int32 p.maxBytes) t.partitions) (xs := q.topics) (hl := h1) (h := ?_)) readsFs_nil
    · simpa only [FetchRequest.toDen, Request.body, List.append_assoc, List.append_nil] using this
    · intro t ht
      apply readsTy_struct
      have := readsFs_cons (name := "Topic") rfl (readsTy_str t.topic (h2 t ht).1) <|
        readsFs_cons (name := "Partitions")
          rfl (readsTy_array (g := fun p => (p.partition, p.fetchOffset, p.maxBytes, ())) (.struct fetchPartitionFields) rfl
          (fun p : FetchPartition => Spec.int32 p.partition ++ Spec.int64 p.fetchOffset ++ Spec.int32 p.maxBytes) (xs := t.partitions) (hl := (h2 t ht).2) (h := ?_)) readsFs_nil
      · simpa only [List.append_assoc, List.append_nil] using this
      · intro p _
        apply readsTy_struct
        have := readsFs_cons (name := "Partition") rfl (readsTy_int32 p.partition) <| readsFs_cons (name := "FetchOffset") rfl (readsTy_int64 p.fetchOffset) <|
          readsFs_cons (name := "PartitionMaxBytes") rfl (readsTy_int32 p.maxBytes) readsFs_nil
        simpa only [List.append_assoc, List.append_nil] using this
  | listOffsets q =>
    cases hv
    obtain ⟨h1, h2⟩ := h
    have := readsFs_cons (name := "ReplicaId") rfl (readsTy_int32 q.replicaId) <|
      readsFs_cons (name := "Topics")
        rfl (readsTy_array (g := fun t => (t.name, some (t.partitions.map fun p => (p.partitionIndex, p.timestamp, ())), ())) (.struct listOffsetsTopicFields) rfl
        (fun t : ListOffsetsTopic => str t.name ++
          array (fun p : ListOffsetsPartition => Spec.int32 p.partitionIndex ++ Spec.int64 p.timestamp) t.partitions) (xs := q.topics) (hl := h1) (h := ?_)) readsFs_nil
    · simpa only [ListOffsetsRequest.toDen, Request.body, List.append_assoc, List.append_nil] using this
    · intro t ht
      apply readsTy_struct
      have := readsFs_cons (name := "Name") rfl (readsTy_str t.name (h2 t ht).1) <|
        readsFs_cons (name := "Parititions")
          rfl (readsTy_array (g := fun p => (p.partitionIndex, p.timestamp, ())) (.struct listOffsetsPartitionFields) rfl
          (fun p : ListOffsetsPartition => Spec.int32 p.partitionIndex ++ Spec.int64 p.timestamp) (xs := t.partitions) (hl := (h2 t ht).2) (h := ?_)) readsFs_nil
      · simpa only [List.append_assoc, List.append_nil] using this
      · intro p _
        apply readsTy_struct
        have := readsFs_cons (name := "PartitionIndex") rfl (readsTy_int32 p.partitionIndex) <|
          readsFs_cons (name := "Timestamp") rfl (readsTy_int64 p.timestamp) readsFs_nil
        simpa only [List.append_assoc, List.append_nil] using this
  | metadata topics =>
    cases hv
    obtain ⟨h1, h2⟩ := h
    have := readsFs_cons (name := "Topics") rfl (readsTy_array .string rfl str id topics h1 fun t ht => readsTy_str t (h2 t ht)) readsFs_nil
    rw [List.map_id] at this
    simpa only [Request.body, List.append_assoc, List.append_nil] using this
  | offsetCommit q =>
    cases hv
    obtain ⟨h1, h2, h3, h4⟩ := h
    have := readsFs_cons (name := "GroupId") rfl (readsTy_str q.groupId h1) <|
      readsFs_cons (name := "GenerationIdOrMemberEpoch") rfl (readsTy_int32 q.generationId) <|
      readsFs_cons (name := "MemberId") rfl (readsTy_str q.memberId h2) <| readsFs_cons (name := "RetentionTimeMs") rfl (readsTy_int64 q.retentionTimeMs) <|
      readsFs_cons (name := "Topics")
        rfl (readsTy_array (g := fun t => (t.name, some (t.partitions.map fun p => (p.partitionIndex, p.committedOffset, p.metadata, ())), ())) (.struct commitTopicFields) rfl
        (fun t : CommitTopic => str t.name ++
          array (fun p : CommitPartition => Spec.int32 p.partitionIndex ++ Spec.int64 p.committedOffset ++ nullableStr p.metadata) t.partitions) (xs := q.topics) (hl := h3) (h := ?_))
      readsFs_nil
    · simpa only [CommitRequest.toDen, Request.body, List.append_assoc, List.append_nil] using this
    · intro t ht
      obtain ⟨h5, h6, h7⟩ := h4 t ht
      apply readsTy_struct
      have := readsFs_cons (name := "Name") rfl (readsTy_str t.name h5) <|
        readsFs_cons (name := "Partitions")
          rfl (readsTy_array (g := fun p => (p.partitionIndex, p.committedOffset, p.metadata, ())) (.struct commitPartitionFields) rfl
          (fun p : CommitPartition => Spec.int32 p.partitionIndex ++ Spec.int64 p.committedOffset ++ nullableStr p.metadata) (xs := t.partitions) (hl := h6) (h := ?_)) readsFs_nil
      · simpa only [List.append_assoc, List.append_nil] using this
      · intro p hp
        apply readsTy_struct
        have := readsFs_cons (name := "PartitionIndex") rfl (readsTy_int32 p.partitionIndex) <|
          readsFs_cons (name := "CommittedOffset") rfl (readsTy_int64 p.committedOffset) <|
          readsFs_cons (name := "CommittedMetadata") rfl (readsTy_nullableStr p.metadata (h7 p hp)) readsFs_nil
        simpa only [List.append_assoc, List.append_nil] using this
  | offsetFetch q =>
    cases hv
    obtain ⟨h1, h2, h3⟩ := h
    have := readsFs_cons (name := "GroupId") rfl (readsTy_str q.groupId h1) <|
      readsFs_cons (name := "Topics")
        rfl (readsTy_array (g := fun t => (t.name, some t.partitionIndexes, ())) (.struct offsetFetchTopicFields) rfl (fun t : OffsetFetchTopic => str t.name ++ array Spec.int32 t.partitionIndexes) (xs := q.topics) (hl := h2) (h := ?_))
      readsFs_nil
    · simpa only [OffsetFetchRequest.toDen, Request.body, List.append_assoc, List.append_nil] using this
    · intro t ht
      apply readsTy_struct
      have := readsFs_cons (name := "Name") rfl (readsTy_str t.name (h3 t ht).1) <|
        readsFs_cons (name := "PartitionIndexes") rfl (readsTy_array .int32 rfl Spec.int32 id t.partitionIndexes (h3 t ht).2 fun x _ => readsTy_int32 x) readsFs_nil
      rw [List.map_id] at this
      simpa only [List.append_assoc, List.append_nil] using this
  | findCoordinator key =>
    cases hv
    simpa only [Request.body, List.append_nil] using readsFs_cons (name := "Key") rfl (readsTy_str key h) readsFs_nil
  | joinGroup g s r m t ps =>
    cases hv
    obtain ⟨h1, h2, h3, h4, h5⟩ := h
    have := readsFs_cons (name := "GroupId") rfl (readsTy_str g h1) <| readsFs_cons (name := "SessionTimeoutMs") rfl (readsTy_int32 s) <|
      readsFs_cons (name := "RebalanceTimeoutMs") rfl (readsTy_int32 r) <| readsFs_cons (name := "MemberId") rfl (readsTy_str m h2) <|
      readsFs_cons (name := "ProtocolType") rfl (readsTy_str t h3) <|
      readsFs_cons (name := "Protocols")
        rfl (readsTy_array (g := fun p => (p.1, some p.2, ())) (.struct (fld "Name" .string <| fld "Metadata" .bytes .nil)) rfl (fun p : Bytes × Bytes => str p.1 ++ bytes p.2) (xs := ps) (hl := h4) (h := ?_))
      readsFs_nil
    · simpa only [Request.body, List.append_assoc, List.append_nil] using this
    · intro p hp
      apply readsTy_struct
      have := readsFs_cons (name := "Name") rfl (readsTy_str p.1 (h5 p hp).1) <| readsFs_cons (name := "Metadata") rfl (readsTy_bytes p.2 (h5 p hp).2) readsFs_nil
      simpa only [List.append_assoc, List.append_nil] using this
  | heartbeat g n m =>
    cases hv
    have := readsFs_cons (name := "GroupId") rfl (readsTy_str g h.1) <| readsFs_cons (name := "GenerationId") rfl (readsTy_int32 n) <|
      readsFs_cons (name := "MemberId") rfl (readsTy_str m h.2) readsFs_nil
    simpa only [Request.body, List.append_assoc, List.append_nil] using this
  | leaveGroup g m =>
    cases hv
    have := readsFs_cons (name := "GroupId") rfl (readsTy_str g h.1) <| readsFs_cons (name := "MemberId") rfl (readsTy_str m h.2) readsFs_nil
    simpa only [Request.body, List.append_assoc, List.append_nil] using this
  | syncGroup g n m ps =>
    cases hv
    obtain ⟨h1, h2, h4, h5⟩ := h
    have := readsFs_cons (name := "GroupId") rfl (readsTy_str g h1) <| readsFs_cons (name := "GenerationId") rfl (readsTy_int32 n) <|
      readsFs_cons (name := "MemberId") rfl (readsTy_str m h2) <|
      readsFs_cons (name := "Assignments")
        rfl (readsTy_array (g := fun p => (p.1, some p.2, ())) (.struct (fld "MemberID" .string <| fld "Assignments" .bytes .nil)) rfl (fun p : Bytes × Bytes => str p.1 ++ bytes p.2) (xs := ps) (hl := h4) (h := ?_))
      readsFs_nil
    · simpa only [Request.body, List.append_assoc, List.append_nil] using this
    · intro p hp
      apply readsTy_struct
      have := readsFs_cons (name := "MemberID") rfl (readsTy_str p.1 (h5 p hp).1) <| readsFs_cons (name := "Assignments") rfl (readsTy_bytes p.2 (h5 p hp).2) readsFs_nil
      simpa only [List.append_assoc, List.append_nil] using this
  | apiVersions => cases hv

/-! ### Reading the body -/

theorem window_take (m : Bytes) : (⟨m⟩ : Reader).window = m.take 4096 := rfl

theorem readRequest_ok {fs : Fields} {b : Bytes} {v : fs.den} (h : ReadsFs fs b v) (hb : b.length ≤ 4096) (extra : Bytes) :
    readRequest fs ⟨b ++ extra⟩ = .ok v ⟨extra⟩ := by
  have h2 := (readsTy_struct h ⟨b ++ extra⟩ 0 (Nat.zero_le _)).1 (extra.take (4096 - b.length)) (by
    rw [window_take, List.drop_zero, List.take_append, List.take_of_length_le hb])
  unfold readRequest
  rw [show peekObject (.struct fs) ⟨b ++ extra⟩ 0 = .ok (0 + b.length) (some v) from h2]
  simp [Reader.discard]

theorem readRequest_short {fs : Fields} {b : Bytes} {v : fs.den} (h : ReadsFs fs b v) {m rest : Bytes} (hb : b = m.take 4096 ++ rest)
    (hr : rest ≠ []) : readRequest fs ⟨m⟩ = .err := by
  have h2 := (readsTy_struct h ⟨m⟩ 0 (Nat.zero_le _)).2 rest hr (by rw [window_take, List.drop_zero]; exact hb)
  unfold readRequest
  rw [show peekObject (.struct fs) ⟨m⟩ 0 = .short from h2]

/-- The handler of a request whose body can be read does what `serve` says, and leaves the bytes after the body. -/
theorem handler_ok {req : Request} (h : req.WellFormed) (sv : Server) (hb : req.body.length ≤ 4096) (extra : Bytes) :
    req.entry.handler sv ⟨req.body ++ extra⟩ = (serve sv req).bind fun
      | none => .ret .err
      | some d => .ret (.ok d ⟨extra⟩) := by
  cases hv : req.value with
  | none =>
    cases req with
    | apiVersions => rfl
    | _ => cases hv
  | some x =>
    obtain ⟨fs, v⟩ := x
    have hr := readRequest_ok (request_reads h hv) hb extra
    cases req with
    | apiVersions => cases hv
    | fetch q =>
      cases hv
      show withRequest _ _ _ = _
      unfold withRequest
      rw [hr]
      simp only [FetchRequest.ofDen_toDen]; rfl
    | listOffsets q =>
      cases hv
      show withRequest _ _ _ = _
      unfold withRequest
      rw [hr]
      simp only [ListOffsetsRequest.ofDen_toDen]; rfl
    | offsetCommit q =>
      cases hv
      show withRequest _ _ _ = _
      unfold withRequest
      rw [hr]
      simp only [CommitRequest.ofDen_toDen]; rfl
    | offsetFetch q =>
      cases hv
      show withRequest _ _ _ = _
      unfold withRequest
      rw [hr]
      simp only [OffsetFetchRequest.ofDen_toDen]; rfl
    | syncGroup g n m as =>
      cases hv
      show withRequest _ _ _ = _
      unfold withRequest
      rw [hr]
      simp only [serve, Option.getD_some, List.length_map]; rfl
    | _ =>
      cases hv
      show withRequest _ _ _ = _
      unfold withRequest
      rw [hr]
      rfl

/-- The handler of a request whose body is cut off (by the message end or by the end of the read buffer) returns an error at once. -/
theorem handler_short {req : Request} (h : req.WellFormed) (sv : Server) {m rest : Bytes} (hb : req.body = m.take 4096 ++ rest) (hr : rest ≠ []) :
    req.entry.handler sv ⟨m⟩ = .ret .err := by
  cases hv : req.value with
  | none =>
    cases req with
    | apiVersions =>
      have := congrArg List.length hb
      simp [Request.body] at this
      exact absurd (List.eq_nil_of_length_eq_zero (by omega)) hr
    | _ => cases hv
  | some x =>
    obtain ⟨fs, v⟩ := x
    have hr := readRequest_short (request_reads h hv) hb hr
    cases req with
    | apiVersions => cases hv
    | _ =>
      cases hv
      show withRequest _ _ _ = _
      unfold withRequest
      rw [hr]

/-! ### The header -/

theorem reads_header (k v : I16) (c : I32) : ReadsTy (.struct headerFields) (Spec.int16 k ++ Spec.int16 v ++ Spec.int32 c) (k, v, c, ()) := by
  apply readsTy_struct
  have := readsFs_cons (name := "RequestApiKey") rfl (readsTy_int16 k) <| readsFs_cons (name := "RequestApiVersion") rfl (readsTy_int16 v) <|
    readsFs_cons (name := "CorrelationId") rfl (readsTy_int32 c) readsFs_nil
  simpa only [List.append_assoc, List.append_nil] using this

theorem reads_client (s : Option Bytes) (h : ∀ x ∈ s, ShortStr x) : Reads peekString (nullableStr s) (s.getD []) := by
  have := ((reads_nullableStr s h).map fun s : Option Bytes => some (s.getD [])).map fun s : Option Bytes => s.getD []
  exact this.congr fun r off => by rw [peekString, peekObject, peekObjectWorker]

/-- The two reads of the header, /repo/kafka-client.go:168-186. -/
def readHeader (r : Reader) (off : Nat) : Res (I16 × I16 × I32) :=
  (peekObject (.struct headerFields) r off).bind fun next hdr =>
    (peekString r next).map fun _ => let (k, v, c, ()) := hdr.getD (0, 0, 0, ()); (k, v, c)

theorem reads_readHeader (k v : I16) (c : I32) (client : Option Bytes) (h : ∀ x ∈ client, ShortStr x) :
    Reads readHeader (header k v c client) (k, v, c) := by
  have := Reads.bind (f := fun r next (hdr : Option (Ty.struct headerFields).den) =>
    (peekString r next).map fun _ => let (k, v, c, ()) := hdr.getD (0, 0, 0, ()); (k, v, c)) (reads_header k v c)
    ((reads_client client h).map fun _ => (k, v, c))
  exact this

theorem dispatcher_eq (sv : Server) (r : Reader) (n : Nat) : dispatcher sv r n =
    match readHeader r 0 with
    | .short => .ret .err
    | .panic => .panic
    | .ok next (k, v, c) =>
      match GoMap.get apiTable (makeApiKey k.toInt v.toInt) with
      | none => .ret .err
      | some api => (api.handler sv (r.discard next)).bind (finish n c) := by
  unfold dispatcher readHeader
  cases peekObject (.struct headerFields) r 0 with
  | short => rfl
  | panic => rfl
  | ok next hdr =>
    dsimp only [Res.bind_ok]
    cases peekString r next with
    | short => rfl
    | panic => rfl
    | ok n2 s => rfl

/-- A complete header: the pair decides. -/
theorem dispatcher_ok (sv : Server) (k v : I16) (c : I32) (client : Option Bytes) (h : ∀ x ∈ client, ShortStr x)
    (hh : (header k v c client).length ≤ 4096) (tail : Bytes) (n : Nat) :
    dispatcher sv ⟨header k v c client ++ tail⟩ n =
      match GoMap.get apiTable (makeApiKey k.toInt v.toInt) with
      | none => .ret .err
      | some api => (api.handler sv ⟨tail⟩).bind (finish n c) := by
  have h2 := (reads_readHeader k v c client h ⟨header k v c client ++ tail⟩ 0 (Nat.zero_le _)).1 (tail.take (4096 - (header k v c client).length)) (by
    rw [window_take, List.drop_zero, List.take_append, List.take_of_length_le hh])
  rw [dispatcher_eq, h2]
  simp [Reader.discard]

/-- A header that is cut off is rejected. -/
theorem dispatcher_cut (sv : Server) (k v : I16) (c : I32) (client : Option Bytes) (h : ∀ x ∈ client, ShortStr x) {m rest : Bytes}
    (hm : header k v c client = m.take 4096 ++ rest) (hr : rest ≠ []) (n : Nat) : dispatcher sv ⟨m⟩ n = .ret .err := by
  have h2 := (reads_readHeader k v c client h ⟨m⟩ 0 (Nat.zero_le _)).2 rest hr (by rw [window_take, List.drop_zero]; exact hm)
  rw [dispatcher_eq, h2]

end KM
