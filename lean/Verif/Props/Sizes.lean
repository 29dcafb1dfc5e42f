import Verif.Props.Strict
import Verif.Props.Talk
import Verif.Replies
/-
Property C114: how large a response can be.
-/
namespace KM.Props
open KM Spec

/-- The bytes that the records of a partition take in a message set. -/
def logBytes (w : World) (t : Bytes) (p : I32) : Nat := ((w.log t p).map wireSize).sum

/-- The bytes of the largest of the partitions that a Fetch names. -/
def mostFetched (w : World) (q : FetchRequest) : Nat := (q.named.map fun x => logBytes w x.1 x.2.partition).foldr max 0

/-- The bytes that the topics and partitions of the mock take in an assignment. -/
def assignmentBytes (w : World) : Nat := (w.ds.map fun e => 6 + e.1.length + 4 * e.2.length).sum

/-- The most bytes of the body of the response to a request; `w` is the store when the response is sent. -/
def mostBytes (sv : Server) (w : World) : Request → Nat
  | .fetch q => 2 * (Request.fetch q).body.length + q.named.length * mostFetched w q
  | .listOffsets q => 2 * (Request.listOffsets q).body.length
  | .metadata topics => 33 + 18 * (Request.metadata topics).body.length
  | .offsetCommit q => (Request.offsetCommit q).body.length
  | .offsetFetch q => 4 * (Request.offsetFetch q).body.length
  | .findCoordinator _ => 21
  | .joinGroup .. => 38
  | .heartbeat .. => 2
  | .leaveGroup .. => 2
  | .syncGroup .. => 16 + assignmentBytes w
  | .apiVersions => 6 + 6 * sv.versions.length

/-! ### Sums -/

theorem sum_sublist {l m : List Nat} (h : l.Sublist m) : l.sum ≤ m.sum := by
  induction h with
  | slnil => simp
  | cons a _ ih => simp only [List.sum_cons]; omega
  | cons_cons a _ ih => simp only [List.sum_cons]; omega

/-- A sum over different elements of a list is at most the sum over the list. -/
theorem sum_nodup_subset {α : Type} {f : α → Nat} {l m : List α} (hn : l.Nodup) (hs : ∀ x ∈ l, x ∈ m) : (l.map f).sum ≤ (m.map f).sum := by
  obtain ⟨k, h1, h2⟩ := List.subperm_of_subset hn (fun x hx => hs x hx)
  rw [← (h1.map f).sum_nat]
  exact sum_sublist (h2.map f)

theorem le_foldr_max {l : List Nat} {x : Nat} (h : x ∈ l) : x ≤ l.foldr max 0 := by
  induction l with
  | nil => cases h
  | cons y l ih =>
    simp only [List.foldr_cons]
    rcases List.mem_cons.1 h with rfl | h
    · omega
    · have := ih h; omega

theorem foldr_max_le {l : List Nat} {n : Nat} (h : ∀ x ∈ l, x ≤ n) : l.foldr max 0 ≤ n := by
  induction l with
  | nil => simp
  | cons y l ih =>
    simp only [List.foldr_cons]
    have := h y (by simp)
    have := ih fun x hx => h x (by simp [hx])
    omega

/-! ### Fetch -/

theorem wireSize_drop_le {wm w' : World} {tr : List Ev} (h : Steps wm tr w') (t : Bytes) (p : I32) (n : Nat) :
    (((wm.log t p).drop n).map wireSize).sum ≤ logBytes w' t p := by
  unfold logBytes
  rw [h.log t p, List.map_append, List.sum_append]
  have := sum_sublist ((List.drop_sublist n (wm.log t p)).map wireSize)
  omega

theorem fetched_bytes {w w' : World} {tr : List Ev} {src : Bytes × FetchPartition} {fd : FetchData} (h : Fetched w tr w' src fd) :
    (fd.ms.msgs.flatMap message1).length ≤ logBytes w' src.1 src.2.partition := by
  rcases h with ⟨_, _, e, _⟩ | ⟨_, t0, t1, wm, _, _, hs, _, _, e, _⟩
  · rw [e]; simp
  · rw [e]
    have : (fun m => message1 m) = encodeMessageV1 := funext message1_eq
    rw [show message1 = encodeMessageV1 from this, flatMap_length]
    exact wireSize_drop_le hs _ _ _

theorem fetch_body_length (q : FetchRequest) : (Request.fetch q).body.length = 16 + (q.topics.map fun t => 6 + t.topic.length + 16 * t.partitions.length).sum := by
  have hi : ∀ t : FetchTopic, (str t.topic ++ array (fun p : FetchPartition => Spec.int32 p.partition ++ Spec.int64 p.fetchOffset ++ Spec.int32 p.maxBytes) t.partitions).length =
      6 + t.topic.length + 16 * t.partitions.length := by
    intro t
    rw [List.length_append, str_length, array_length]
    have : (t.partitions.map fun p => (Spec.int32 p.partition ++ Spec.int64 p.fetchOffset ++ Spec.int32 p.maxBytes).length) = t.partitions.map fun _ => 16 := rfl
    rw [this, List.map_const', List.sum_replicate_nat]; omega
  show (Spec.int32 q.replicaId ++ Spec.int32 q.maxWaitMs ++ Spec.int32 q.minBytes ++ array _ q.topics).length = _
  rw [List.length_append, array_length]
  simp only [hi, List.length_append]
  simp only [Spec.int32, List.length_cons, List.length_nil]
  omega

theorem named_length (q : FetchRequest) : q.named.length = (q.topics.map fun t => t.partitions.length).sum := by
  unfold FetchRequest.named
  rw [List.length_flatMap]
  simp

/-- A Fetch names fewer than 256 partitions. -/
theorem named_few {q : FetchRequest} (h : (Request.fetch q).body.length ≤ 4096) : q.named.length ≤ 255 := by
  rw [fetch_body_length] at h
  rw [named_length]
  have : ∀ l : List FetchTopic, 16 * (l.map fun t => t.partitions.length).sum ≤ (l.map fun t => 6 + t.topic.length + 16 * t.partitions.length).sum := by
    intro l
    induction l with
    | nil => simp
    | cons t l ih => simp only [List.map_cons, List.sum_cons]; omega
  have := this q.topics
  omega

theorem fetch_size {q : FetchRequest} {resp : FetchResponse} {w w' : World} {tr : List Ev} (h : Exec w (fetch q) tr w' (.ret resp)) {M : Nat}
    (hM : ∀ src ∈ q.named, ∀ fd, Fetched w tr w' src fd → (fd.ms.msgs.flatMap message1).length ≤ M) :
    (Spec.fetchResponse resp).length ≤ 2 * (Request.fetch q).body.length + q.named.length * M := by
  obtain ⟨fds, h1, h2, _⟩ := fetch_ret h
  have h3 := fetchRespond_eq h2
  rw [fetch_body_length, named_length]
  have key : (resp.responses.map fun t : FetchRespTopic => (str t.topic ++
      array (fun p : FetchRespPartition => Spec.int32 p.partitionIndex ++ Spec.int16 p.errorCode ++ Spec.int64 p.highWatermark ++
        (Spec.int32 (BitVec.ofInt 32 p.records.totalSize) ++ p.records.msgs.flatMap message1)) t.partitions).length).sum ≤
      (q.topics.zipIdx.map fun x => 6 + x.1.topic.length + x.1.partitions.length * (18 + M)).sum := by
    generalize q.topics.zipIdx = l, resp.responses = rs at h3
    induction h3 with
    | nil => simp
    | @cons x rt l rs hx _ ih =>
      simp only [List.map_cons, List.sum_cons]
      refine Nat.add_le_add ?_ ih
      obtain ⟨fd, e1, e2, e3⟩ := hx
      obtain ⟨src, hsrc, hf⟩ := forall₂_get h1 e1
      have hm := hM src (List.mem_of_getElem? hsrc) fd hf
      rw [List.length_append, str_length, array_length, e2, e3, List.map_map]
      have := sum_map_le_mul (f := (fun p : FetchRespPartition => (Spec.int32 p.partitionIndex ++ Spec.int16 p.errorCode ++ Spec.int64 p.highWatermark ++
        (Spec.int32 (BitVec.ofInt 32 p.records.totalSize) ++ p.records.msgs.flatMap message1)).length) ∘ fun par => FetchRespPartition.of par fd) (l := x.1.partitions) (m := 18 + M) (by
          intro par _
          simp only [Function.comp, FetchRespPartition.of, List.length_append]
          simp only [Spec.int32, Spec.int16, Spec.int64, List.length_cons, List.length_nil]
          omega)
      omega
  have hz : (q.topics.zipIdx.map fun x => 6 + x.1.topic.length + x.1.partitions.length * (18 + M)) =
      q.topics.map fun t => 6 + t.topic.length + t.partitions.length * (18 + M) := by
    have : q.topics = q.topics.zipIdx.map Prod.fst := by simp
    conv => rhs; rw [this]
    rw [List.map_map]; rfl
  rw [hz] at key
  have hsum : ∀ l : List FetchTopic, (l.map fun t => 6 + t.topic.length + t.partitions.length * (18 + M)).sum ≤
      2 * (l.map fun t => 6 + t.topic.length + 16 * t.partitions.length).sum + (l.map fun t => t.partitions.length).sum * M := by
    intro l
    induction l with
    | nil => simp
    | cons t l ih =>
      simp only [List.map_cons, List.sum_cons, Nat.add_mul, Nat.mul_add] at ih ⊢
      omega
  have := hsum q.topics
  unfold Spec.fetchResponse
  rw [List.length_append, array_length]
  have h4 : (Spec.int32 resp.throttleTimeMs).length = 4 := rfl
  rw [h4]
  omega

/-! ### OffsetFetch -/

theorem offsetFetch_body_length (q : OffsetFetchRequest) :
    (Request.offsetFetch q).body.length = 6 + q.groupId.length + (q.topics.map fun t => 6 + t.name.length + 4 * t.partitionIndexes.length).sum := by
  have hi : ∀ t : OffsetFetchTopic, (str t.name ++ array Spec.int32 t.partitionIndexes).length = 6 + t.name.length + 4 * t.partitionIndexes.length := by
    intro t
    rw [List.length_append, str_length, array_length]
    have : (t.partitionIndexes.map fun x => (Spec.int32 x).length) = t.partitionIndexes.map fun _ => 4 := rfl
    rw [this, List.map_const', List.sum_replicate_nat]; omega
  show (str q.groupId ++ array _ q.topics).length = _
  rw [List.length_append, array_length, str_length]
  simp only [hi]
  omega

/-- Each element counts for at most one of different names. -/
theorem sum_filter_le {α : Type} {g : α → Bytes} {b : α → Bool} {names : List Bytes} (hn : names.Nodup) (l : List α) :
    (names.map fun n => (l.filter fun x => b x && decide (g x = n)).length).sum ≤ l.length := by
  induction l with
  | nil =>
    have : (names.map fun n => (([] : List α).filter fun x => b x && decide (g x = n)).length) = names.map fun _ => 0 := rfl
    rw [this, List.map_const', List.sum_replicate_nat]; simp
  | cons x l ih =>
    have h1 : (names.map fun n => ((x :: l).filter fun x => b x && decide (g x = n)).length).sum ≤
        (names.map fun n => (l.filter fun x => b x && decide (g x = n)).length).sum + (names.map fun n => if g x = n then 1 else 0).sum := by
      clear ih hn
      induction names with
      | nil => simp
      | cons n names ih =>
        simp only [List.map_cons, List.sum_cons, List.filter_cons] at ih ⊢
        have : (if (b x && decide (g x = n)) = true then x :: l.filter (fun x => b x && decide (g x = n)) else l.filter fun x => b x && decide (g x = n)).length ≤
            (l.filter fun x => b x && decide (g x = n)).length + if g x = n then 1 else 0 := by
          by_cases hg : g x = n
          · rw [if_pos hg]; split <;> simp
          · simp [hg]
        omega
    have h2 : (names.map fun n => if g x = n then 1 else 0).sum ≤ 1 := by
      clear h1 ih
      induction names with
      | nil => simp
      | cons n names ih =>
        simp only [List.nodup_cons] at hn
        simp only [List.map_cons, List.sum_cons]
        by_cases hg : g x = n
        · have : (names.map fun n => if g x = n then 1 else 0) = names.map fun _ => 0 := by
            refine List.map_congr_left fun m hm => ?_
            rw [if_neg]
            intro e
            exact hn.1 (by rw [← hg, e]; exact hm)
          rw [this, List.map_const', List.sum_replicate_nat, if_pos hg]; simp
        · rw [if_neg hg]
          have := ih hn.2
          omega
    simp only [List.length_cons]
    omega

theorem offsetFetch_size {q : OffsetFetchRequest} {resp : OffsetFetchResponse} {hist : List Ev} {w w' : World} {tr : List Ev} (hr : ReachedBy hist w)
    (h : Exec w (offsetFetch q) tr w' (.ret resp)) : (Spec.offsetFetchResponse resp).length ≤ 4 * (Request.offsetFetch q).body.length := by
  obtain ⟨fl, f1, f2, f3, f4, f5⟩ := C26_offset_fetch_exact hr h
  have hmeta : ∀ rt ∈ resp.topics, ∀ rp ∈ rt.partitions, rp.metadata = none := by
    intro rt hrt rp hrp
    obtain ⟨n, hn⟩ := List.getElem?_of_mem hrp
    obtain ⟨_, _, _, _, g, _⟩ := forall₂_get (f5 rt hrt) hn
    exact g
  have h1 : (Spec.offsetFetchResponse resp).length ≤ 4 + (resp.topics.map fun rt => (6 + rt.name.length) +
      16 * (fl.filter fun x => x.2 && decide (x.1.1 = rt.name)).length).sum := by
    unfold Spec.offsetFetchResponse
    rw [array_length]
    refine Nat.add_le_add_left (sum_map_le fun rt hrt => ?_) _
    rw [List.length_append, str_length, array_length]
    have e : (rt.partitions.map fun p => (Spec.int32 p.partitionIndex ++ Spec.int64 p.committedOffset ++ nullableStr p.metadata ++ Spec.int16 p.errorCode).length).sum ≤
        rt.partitions.length * 16 := by
      refine sum_map_le_mul fun rp hrp => ?_
      rw [hmeta rt hrt rp hrp]
      simp [Spec.int32, Spec.int64, Spec.int16, nullableStr]
    have := (f5 rt hrt).length_eq
    rw [List.length_map] at this
    omega
  have h2 : ∀ l : List OffsetFetchRespTopic, (l.map fun rt => (6 + rt.name.length) + 16 * (fl.filter fun x => x.2 && decide (x.1.1 = rt.name)).length).sum =
      ((l.map (·.name)).map fun n => 6 + n.length).sum + 16 * ((l.map (·.name)).map fun n => (fl.filter fun x => x.2 && decide (x.1.1 = n)).length).sum := by
    intro l
    induction l with
    | nil => simp
    | cons t l ih => simp only [List.map_cons, List.sum_cons] at ih ⊢; omega
  rw [h2] at h1
  have h3 := sum_filter_le (g := fun x : (Bytes × I32) × Bool => x.1.1) (b := fun x => x.2) f3 fl
  have h4 : ((resp.topics.map (·.name)).map fun n => 6 + n.length).sum ≤ ((q.topics.map (·.name)).map fun n => 6 + n.length).sum := by
    refine sum_nodup_subset f3 fun n hn => ?_
    obtain ⟨y, hy, _, rfl⟩ := (f4 n).1 hn
    have hm : y.1 ∈ OffsetFetchRequest.named q := by rw [← f1]; exact List.mem_map_of_mem hy
    unfold OffsetFetchRequest.named at hm
    obtain ⟨t, ht, hx⟩ := List.mem_flatMap.1 hm
    obtain ⟨p, _, e⟩ := List.mem_map.1 hx
    exact List.mem_map.2 ⟨t, ht, by rw [← e]⟩
  have h5 : fl.length = (q.topics.map fun t => t.partitionIndexes.length).sum := by
    have : fl.length = (OffsetFetchRequest.named q).length := by rw [← f1, List.length_map]
    rw [this]
    unfold OffsetFetchRequest.named
    rw [List.length_flatMap]
    simp
  have h6 : ∀ l : List OffsetFetchTopic, ((l.map (·.name)).map fun n => 6 + n.length).sum + 4 * (l.map fun t => t.partitionIndexes.length).sum =
      (l.map fun t => 6 + t.name.length + 4 * t.partitionIndexes.length).sum := by
    intro l
    induction l with
    | nil => simp
    | cons t l ih => simp only [List.map_cons, List.sum_cons] at ih ⊢; omega
  have := h6 q.topics
  rw [offsetFetch_body_length]
  omega

/-! ### SyncGroup -/

theorem assigned_size {w w' : World} {ts : List (Bytes × List I32)} (hn : NodupStore w'.ds) (h : Assigned w w' ts) :
    (ts.map fun x => 6 + x.1.length + 4 * x.2.length).sum ≤ assignmentBytes w' := by
  have h1 : (ts.map fun x => 6 + x.1.length + 4 * x.2.length).sum ≤ (ts.map fun x => 6 + x.1.length + 4 * ((GoMap.get w'.ds x.1).getD []).length).sum := by
    refine sum_map_le fun x hx => ?_
    have hp := h.partsExist x hx
    have hnd := h.partsOnce x hx
    have : x.2.length ≤ ((GoMap.get w'.ds x.1).getD []).length := by
      have hs : x.2 ⊆ GoMap.keys ((GoMap.get w'.ds x.1).getD []) := by
        intro p hpm
        have := hp p hpm
        unfold World.hasPartition Store.part? at this
        cases hk : GoMap.get w'.ds x.1 with
        | none => rw [hk] at this; cases this
        | some kt =>
          rw [hk] at this
          rw [Option.getD_some, GoMap.mem_keys_iff]
          exact this
      have := (List.subperm_of_subset hnd hs).length_le
      simpa [GoMap.keys] using this
    omega
  refine Nat.le_trans h1 ?_
  have e1 : (ts.map fun x => 6 + x.1.length + 4 * ((GoMap.get w'.ds x.1).getD []).length) =
      (ts.map Prod.fst).map fun n => 6 + n.length + 4 * ((GoMap.get w'.ds n).getD []).length := by rw [List.map_map]; rfl
  rw [e1]
  refine Nat.le_trans (sum_nodup_subset (m := GoMap.keys w'.ds) h.once fun n hn' => ?_) ?_
  · obtain ⟨x, hx, rfl⟩ := List.mem_map.1 hn'
    rw [GoMap.mem_keys_iff]
    exact h.topicsExist x hx
  · unfold assignmentBytes GoMap.keys
    rw [List.map_map]
    refine sum_map_le fun e he => ?_
    have : GoMap.get w'.ds e.1 = some e.2 := GoMap.mem_get hn.1 he
    simp only [Function.comp]
    rw [this]; simp

theorem memberAssignment_length (ts : List (Bytes × List I32)) :
    (Spec.memberAssignment 1 ts none).length = 10 + (ts.map fun x => 6 + x.1.length + 4 * x.2.length).sum := by
  have hi : ∀ t : Bytes × List I32, (str t.1 ++ array Spec.int32 t.2).length = 6 + t.1.length + 4 * t.2.length := by
    intro t
    rw [List.length_append, str_length, array_length]
    have : (t.2.map fun x => (Spec.int32 x).length) = t.2.map fun _ => 4 := rfl
    rw [this, List.map_const', List.sum_replicate_nat]; omega
  unfold Spec.memberAssignment
  rw [List.length_append, List.length_append, array_length]
  simp only [hi]
  have h1 : (Spec.int16 1).length = 2 := rfl
  have h2 : (nullableBytes none).length = 4 := rfl
  omega

/-! ### Every request -/

theorem answer_size {sv : Server} {req : Request} {hist : List Ev} {w w' : World} {tr : List Ev} {payload : Bytes} (hr : ReachedBy hist w)
    (h : Exec w (answer sv req) tr w' (.ret (some payload))) : payload.length ≤ mostBytes sv w' req := by
  cases req with
  | fetch q =>
    obtain ⟨x, h1, e⟩ := exec_map_ret h
    cases e
    exact fetch_size h1 fun src hsrc fd hf => Nat.le_trans (fetched_bytes hf) (le_foldr_max (List.mem_map.2 ⟨src, hsrc, rfl⟩))
  | listOffsets q =>
    obtain ⟨x, h1, e⟩ := exec_map_ret h
    cases e
    have : (listOffsetsResponse x).length ≤ 2 * (array (fun t : ListOffsetsTopic => str t.name ++
        array (fun p : ListOffsetsPartition => Spec.int32 p.partitionIndex ++ Spec.int64 p.timestamp) t.partitions) q.topics).length := by
      refine array_length_le (by omega) (List.Forall₂.imp ?_ (listOffsets_answers h1))
      rintro qt rt ⟨g1, g2⟩
      have := array_length_le (n := 2)
        (g := fun p : ListOffsetsRespPartition => Spec.int32 p.partitionIndex ++ Spec.int16 p.errorCode ++ Spec.int64 p.timestamp ++ Spec.int64 p.offset)
        (f := fun p : ListOffsetsPartition => Spec.int32 p.partitionIndex ++ Spec.int64 p.timestamp) (by omega)
        (List.Forall₂.imp (fun qp rp _ => by simp [Spec.int32, Spec.int16, Spec.int64]) g2)
      rw [g1, List.length_append, List.length_append]
      omega
    have hb : (Request.listOffsets q).body = Spec.int32 q.replicaId ++ array (fun t : ListOffsetsTopic => str t.name ++
        array (fun p : ListOffsetsPartition => Spec.int32 p.partitionIndex ++ Spec.int64 p.timestamp) t.partitions) q.topics := rfl
    show _ ≤ 2 * (Request.listOffsets q).body.length
    rw [hb, List.length_append]
    omega
  | metadata topics =>
    obtain ⟨e, _⟩ := exec_ret_inv h
    cases e
    show _ ≤ 33 + 18 * (array str topics).length
    have h1 : (Spec.metadataResponse (metadataFor sv.port topics)).length = 33 + (topics.map fun t => 35 + t.length).sum := by
      unfold Spec.metadataResponse metadataFor
      rw [List.length_append, List.length_append, array_length, array_length, List.map_map]
      have : ((fun t : MetaTopic => (Spec.int16 t.errorCode ++ str t.name ++ Spec.bool t.isInternal ++
          array (fun p : MetaPartition => Spec.int16 p.errorCode ++ Spec.int32 p.partitionIndex ++ Spec.int32 p.leaderId ++ array Spec.int32 p.replicas ++ array Spec.int32 p.isr)
            t.partitions).length) ∘ fun t => (⟨0, t, false, [⟨0, 2, 100, [1], [1]⟩]⟩ : MetaTopic)) = fun t => 35 + t.length := by
        funext t
        simp [array, str, Spec.int16, Spec.int32, Spec.bool]
        omega
      rw [this]
      simp only [List.map_cons, List.map_nil, List.sum_cons, List.sum_nil, List.length_append]
      simp only [str_length, Spec.int32, List.length_cons, List.length_nil, nullableStr, Spec.int16, lit, List.length_map]
      omega
    rw [h1, array_length]
    have h2 : (topics.map fun t => 35 + t.length).sum ≤ 18 * (topics.map fun t => (str t).length).sum := by
      simp only [str_length]
      clear h1 h
      induction topics with
      | nil => simp
      | cons t l ih => simp only [List.map_cons, List.sum_cons]; omega
    omega
  | offsetCommit q =>
    obtain ⟨x, h1, e⟩ := exec_map_ret h
    cases e
    have : (commitResponse x).length ≤ 1 * (array (fun t : CommitTopic => str t.name ++
        array (fun p : CommitPartition => Spec.int32 p.partitionIndex ++ Spec.int64 p.committedOffset ++ nullableStr p.metadata) t.partitions) q.topics).length := by
      refine array_length_le (by omega) (List.Forall₂.imp ?_ (C25_commit_answers h1))
      rintro qt rt ⟨g1, g2⟩
      have := array_length_le (n := 1) (g := fun p : CommitRespPartition => Spec.int32 p.partitionIndex ++ Spec.int16 p.errorCode)
        (f := fun p : CommitPartition => Spec.int32 p.partitionIndex ++ Spec.int64 p.committedOffset ++ nullableStr p.metadata) (by omega)
        (List.Forall₂.imp (fun qp rp _ => by simp [Spec.int32, Spec.int16, Spec.int64]) g2)
      rw [g1, List.length_append, List.length_append]
      omega
    have hb : (Request.offsetCommit q).body = str q.groupId ++ Spec.int32 q.generationId ++ str q.memberId ++ Spec.int64 q.retentionTimeMs ++ array (fun t : CommitTopic => str t.name ++
        array (fun p : CommitPartition => Spec.int32 p.partitionIndex ++ Spec.int64 p.committedOffset ++ nullableStr p.metadata) t.partitions) q.topics := rfl
    show _ ≤ (Request.offsetCommit q).body.length
    rw [hb, List.length_append]
    omega
  | offsetFetch q =>
    obtain ⟨x, h1, e⟩ := exec_map_ret h
    cases e
    exact offsetFetch_size hr h1
  | findCoordinator key =>
    obtain ⟨e, _⟩ := exec_ret_inv h
    cases e
    exact Nat.le_refl _
  | joinGroup =>
    obtain ⟨e, _⟩ := exec_ret_inv h
    cases e
    exact Nat.le_refl _
  | heartbeat =>
    obtain ⟨e, _⟩ := exec_ret_inv h
    cases e
    exact Nat.le_refl _
  | leaveGroup =>
    obtain ⟨e, _⟩ := exec_ret_inv h
    cases e
    exact Nat.le_refl _
  | syncGroup g gen m as =>
    have h : Exec w (if as.length ≠ 0 then .ret none else assignedPartitions.map fun ts => some (Spec.syncGroupResponse 0 (Spec.memberAssignment 1 ts none))) tr w'
      (.ret (some payload)) := h
    split at h
    · obtain ⟨e, _⟩ := exec_ret_inv h
      cases e
    · obtain ⟨ts, h1, e⟩ := exec_map_ret h
      cases e
      have h2 := assigned_size (steps_nodup h1.steps hr.nodup) (assignedPartitions_run hr.wf hr.nodup h1)
      show (Spec.int16 0 ++ Spec.bytes _).length ≤ 16 + assignmentBytes w'
      unfold Spec.bytes
      rw [List.length_append, List.length_append, memberAssignment_length]
      have e1 : (Spec.int16 0).length = 2 := rfl
      simp only [Spec.int32, List.length_cons, List.length_nil]
      omega
  | apiVersions =>
    obtain ⟨t1, w1, order, w2, t2, h1, s1, h2, rfl⟩ := exec_act_ret h
    obtain ⟨e, _⟩ := exec_ret_inv h2
    cases e
    obtain ⟨_, hp⟩ := s1
    show _ ≤ 6 + 6 * sv.versions.length
    unfold Spec.apiVersionsResponse
    rw [List.length_append, array_length]
    have : ((((apiVersionsList sv.versions order).map fun e => (e.apiKey, e.minVersion, e.maxVersion))).map fun e : I16 × I16 × I16 =>
        (Spec.int16 e.1 ++ Spec.int16 e.2.1 ++ Spec.int16 e.2.2).length) = ((apiVersionsList sv.versions order).map fun e => (e.apiKey, e.minVersion, e.maxVersion)).map fun _ => 6 := rfl
    rw [this, List.map_const', List.sum_replicate_nat, List.length_map]
    unfold apiVersionsList
    rw [List.length_map, List.length_mergeSort]
    have h4 := hp.length_eq
    simp only [GoMap.keys, List.length_map] at h4
    have h3 : ∀ f : Int → Bool, (order.filter f).length ≤ sv.versions.length := fun f => by
      have := List.length_filter_le f order
      omega
    exact (fun n (hn : n ≤ sv.versions.length) => (by omega : 2 + (4 + n * 6) ≤ 6 + 6 * sv.versions.length)) _ (h3 _)

/-! ### Later stores -/

theorem logBytes_mono {w w' : World} {tr : List Ev} (h : Steps w tr w') (t : Bytes) (p : I32) : logBytes w t p ≤ logBytes w' t p := by
  have := wireSize_drop_le h t p 0
  simpa [logBytes] using this

theorem assignmentBytes_mono {w w' : World} {tr : List Ev} (hn : NodupStore w.ds) (h : Steps w tr w') : assignmentBytes w ≤ assignmentBytes w' := by
  have ha : Assigned w w' (w.ds.map fun e => (e.1, GoMap.keys e.2)) := by
    have get : ∀ e ∈ w.ds, GoMap.get w.ds e.1 = some e.2 := fun e he => GoMap.mem_get hn.1 he
    refine ⟨?_, ?_, ?_, ?_, ?_, ?_⟩
    · rw [List.map_map]; exact hn.1
    · intro x hx
      obtain ⟨e, he, rfl⟩ := List.mem_map.1 hx
      exact hn.2 _ _ (get e he)
    · intro t ht
      rw [List.map_map]
      exact (GoMap.mem_keys_iff _ _).2 ht
    · intro x hx
      obtain ⟨e, he, rfl⟩ := List.mem_map.1 hx
      refine h.hasTopic ?_
      unfold World.hasTopic
      rw [get e he]; rfl
    · intro x hx p hp
      obtain ⟨e, he, rfl⟩ := List.mem_map.1 hx
      unfold World.hasPartition Store.part? at hp
      rw [get e he] at hp
      exact (GoMap.mem_keys_iff _ _).2 hp
    · intro x hx p hp
      obtain ⟨e, he, rfl⟩ := List.mem_map.1 hx
      refine h.hasPartition ?_
      unfold World.hasPartition Store.part?
      rw [get e he]
      exact (GoMap.mem_keys_iff _ _).1 hp
  have := assigned_size (steps_nodup h hn) ha
  rw [List.map_map] at this
  refine Nat.le_trans (Nat.le_of_eq ?_) this
  unfold assignmentBytes
  congr 1
  refine List.map_congr_left fun e _ => ?_
  simp [GoMap.keys]

theorem mostBytes_mono {sv : Server} {w w' : World} {tr : List Ev} (hn : NodupStore w.ds) (h : Steps w tr w') (req : Request) : mostBytes sv w req ≤ mostBytes sv w' req := by
  cases req with
  | fetch q =>
    refine Nat.add_le_add_left (Nat.mul_le_mul_left _ (foldr_max_le fun x hx => ?_)) _
    obtain ⟨src, hsrc, rfl⟩ := List.mem_map.1 hx
    exact Nat.le_trans (logBytes_mono h _ _) (le_foldr_max (List.mem_map.2 ⟨src, hsrc, rfl⟩))
  | syncGroup => exact Nat.add_le_add_left (assignmentBytes_mono hn h) _
  | _ => exact Nat.le_refl _

theorem mostBytes_view (sv : Server) (s : Sys) (ctx : Nat) (req : Request) : mostBytes sv (s.view ctx) req = mostBytes sv (s.view 0) req := by
  cases req <;> rfl

/-! ### What is written for a request -/

/-- **C114**: whatever a request is, and whatever else happens meanwhile: all that the mock writes on the connection for it is at most the eight bytes of size and correlation id
and `mostBytes`, with the data of the mock as it is when the mock is done with the request. -/
theorem C114 {sv : Server} {req : Request} {c : I32} {hist : List Ev} {w w' : World} {tr : List Ev} {q : Prog DRes} (hr : ReachedBy hist w)
    (h : RequestRun sv req c w tr w' q) : (sent (own tr)).length ≤ 8 + mostBytes sv w' req := by
  rcases h.cases with ⟨_, _, e⟩ | ⟨t1, t2, w1, rfl, hs, h1⟩
  · rw [e]; simp
  · rcases h1 with ⟨_, _, e⟩ | ⟨payload, hx, _, e⟩
    · rw [e]; simp
    · rw [e, responseBytes_length]
      have := answer_size hr hx
      have := mostBytes_mono (sv := sv) (steps_nodup hx.steps hr.nodup) hs req
      omega

/-- **C114** on the connection: the response that a client gets to a request is at most that large. -/
theorem C114_wire {sv : Server} {clock : Int} {k : Nat} {req : Request} {c : I32} {t1 tr : List SEv} {s1 s2 : Sys}
    (h : Exchange sv clock k req c t1 s1 tr s2) : (sent (actsOf k tr)).length ≤ 8 + mostBytes sv (s2.view 0) req := by
  obtain ⟨ctx, es, h1, h2, _⟩ := h.run
  obtain ⟨client, m, _, hs⟩ := h.serves
  obtain ⟨s0, h0, hb⟩ := hs.begins
  obtain ⟨hist, hr, _⟩ := reachedBy (h0.append (.cons hb (.nil _))) ctx
  rw [← h2, ← mostBytes_view sv s2 ctx]
  exact C114 hr h1

/-- **C114**, Fetch by the limits it asks for: while no record has 2 GiB, the response to a Fetch is at most twice the size of the request, and for each partition named the
largest of the limits (`max_bytes`) of the partitions named. -/
theorem C114_limits {sv : Server} {q : FetchRequest} {c : I32} {w w' : World} {tr : List Ev} {x : Prog DRes}
    (h : RequestRun sv (.fetch q) c w tr w' x) (hs : ∀ t p, ∀ r ∈ w'.log t p, wireSize r < 2 ^ 31) :
    (sent (own tr)).length ≤ 8 + 2 * (Request.fetch q).body.length + q.named.length * (q.named.map fun src => src.2.maxBytes.toInt.toNat).foldr max 0 := by
  rcases h.cases with ⟨_, _, e⟩ | ⟨t1, t2, w1, rfl, h2, h1⟩
  · rw [e]; simp
  · rcases h1 with ⟨_, _, e⟩ | ⟨payload, hx, _, e⟩
    · rw [e]; simp
    · rw [e, responseBytes_length]
      obtain ⟨y, hy, e⟩ := exec_map_ret hx
      cases e
      have := fetch_size hy (M := (q.named.map fun src => src.2.maxBytes.toInt.toNat).foldr max 0) fun src hsrc fd hf => by
        refine Nat.le_trans ?_ (le_foldr_max (List.mem_map.2 ⟨src, hsrc, rfl⟩))
        obtain ⟨body, e1, _, e2⟩ := Fetched.sizes hf (fun r hr => hs _ _ r (by rw [h2.log]; exact List.mem_append_left _ hr))
        have e3 : (fd.ms.msgs.flatMap message1).length = body.length := by
          have := congrArg List.length e1
          unfold encodeMessageSetV1 at this
          rw [show message1 = encodeMessageV1 from funext message1_eq]
          simpa [encodeInt32] using this
        omega
      omega

/-! ### Data that is small enough -/

/-- The data of a mock is modest: each partition has less than 16 MiB of records (as they are sent), the topics and partitions take less than 4 GiB in an assignment, and the
table of versions has less than 2^29 entries (it has fewer than 100). -/
structure Modest (sv : Server) (w : World) : Prop where
  logs : ∀ t p, logBytes w t p < 2 ^ 24
  names : assignmentBytes w < 2 ^ 32 - 20
  versions : sv.versions.length < 2 ^ 29

theorem Modest.bytes {sv : Server} {w : World} (h : Modest sv w) {req : Request} (hb : req.body.length ≤ 4096) : mostBytes sv w req + 4 < 2 ^ 32 := by
  have hn := h.names
  have hv := h.versions
  cases req with
  | fetch q =>
    have h1 := named_few hb
    have h2 : mostFetched w q ≤ 2 ^ 24 - 1 := foldr_max_le fun x hx => by
      obtain ⟨src, _, rfl⟩ := List.mem_map.1 hx
      have := h.logs src.1 src.2.partition
      omega
    have h3 := Nat.mul_le_mul h1 h2
    show 2 * (Request.fetch q).body.length + q.named.length * mostFetched w q + 4 < 2 ^ 32
    omega
  | listOffsets q => show 2 * (Request.listOffsets q).body.length + 4 < 2 ^ 32; omega
  | metadata topics => show 33 + 18 * (Request.metadata topics).body.length + 4 < 2 ^ 32; omega
  | offsetCommit q => show (Request.offsetCommit q).body.length + 4 < 2 ^ 32; omega
  | offsetFetch q => show 4 * (Request.offsetFetch q).body.length + 4 < 2 ^ 32; omega
  | findCoordinator => show 21 + 4 < 2 ^ 32; omega
  | joinGroup => show 38 + 4 < 2 ^ 32; omega
  | heartbeat => show 2 + 4 < 2 ^ 32; omega
  | leaveGroup => show 2 + 4 < 2 ^ 32; omega
  | syncGroup => show 16 + assignmentBytes w + 4 < 2 ^ 32; omega
  | apiVersions => show 6 + 6 * sv.versions.length + 4 < 2 ^ 32; omega

/-- What is reached on the way to the result is followed by the rest of the actions. -/
theorem own_rest {α : Type} {p q : Prog α} {l l' : List REv} {v : α} (h1 : Own p l q) (h2 : Own p (l ++ l') (.ret v)) : Own q l' (.ret v) := by
  induction h1 with
  | refl p => exact h2
  | act b f r _ ih =>
    rcases own_act_inv h2 with ⟨_, x⟩ | ⟨r', l1, x1, x2⟩
    · cases x
    · cases x1
      exact ih x2
  | @unroll σ β s body k' l p' _ ih =>
    generalize l ++ l' = z at h2 ih
    cases h2 with
    | unroll h2 => exact ih h2

theorem _root_.KM.Own.unrolled {α : Type} {p q : Prog α} {l : List REv} (h : Own p l q) (hl : l = []) (w : World) : Exec w p [] w q := by
  induction h with
  | refl p => exact .refl _ _
  | act => cases hl
  | unroll _ ih => exact .unroll (ih hl)

/-- A run of a program that begins with `A`, and has done all the actions with which `A` returns `v`. -/
theorem exec_returned {α β : Type} {A : Prog α} {K : α → Prog β} {w w' : World} {es : List Ev} {y : Prog β} {v : α} (h : Exec w (A.bind K) es w' y)
    (ho : Own A (own es) (.ret v)) : ∃ t1 t2 w1, es = t1 ++ t2 ∧ Exec w A t1 w1 (.ret v) ∧ Steps w1 t2 w' := by
  rcases exec_bind_inv h with ⟨x, h1, _⟩ | ⟨t1, t2, w1, u, h1, h2, rfl⟩
  · have h3 := own_rest (l' := []) h1.own (by rw [List.append_nil]; exact ho)
    have := h1.trans (h3.unrolled rfl w')
    rw [List.append_nil] at this
    exact ⟨es, [], w', by simp, this, .nil _⟩
  · rw [own_append] at ho
    have h3 := own_rest h1.own ho
    obtain ⟨e, _⟩ := own_ret_inv h3
    cases e
    exact ⟨t1, t2, w1, rfl, h1, h2.steps⟩

theorem send_inj {c c' : I32} {p p' : Bytes} (h : send c p = send c' p') : p = p' := by
  unfold send at h
  injection h with _ _ h
  have h := congrFun h true
  simp only [if_true] at h
  injection h with _ _ h
  have h := congrFun h true
  simp only [if_true] at h
  injection h with _ h _
  injection h

/-- A dispatcher about to answer has the answer of the request. -/
theorem dispatcher_payload {sv : Server} {m : Bytes} {l : List REv} {c : I32} {payload : Bytes} (hl : ∀ e ∈ l, e.act.socket = false)
    (h : Own (dispatcher sv ⟨m⟩ m.length) l (send c payload)) :
    ∃ (req : Request) (F : Option Bytes → Prog DRes), req.body.length ≤ 4096 ∧ dispatcher sv ⟨m⟩ m.length = (answer sv req).bind F ∧ F (some payload) = send c payload ∧
      Own (answer sv req) l (.ret (some payload)) := by
  rcases C103 sv m m.length with ⟨req, c', client, a, extra, h1, h2, h3, h4, rfl, h6, h7⟩ | h7 | h7
  · rw [dispatcher_request h2 sv c' client h3 h4.1 h4.2] at h7
    refine ⟨req, _, h4.2, h7, ?_⟩
    rw [h7] at h
    rcases own_bind_inv h with ⟨x, g1, g2⟩ | ⟨a1, a2, v, g1, g2, g3⟩
    · cases x with
      | ret v =>
        cases v with
        | none => cases g2
        | some payload' =>
          rw [Prog.bind_ret] at g2
          dsimp only at g2 ⊢
          split at g2
          · cases g2
          · next hx =>
            rw [if_neg hx]
            have := send_inj g2
            subst this
            exact ⟨g2.symm, g1⟩
      | panic => cases g2
      | loop => cases g2
      | act b k =>
        have hs := (g1.only (answer_socket sv req)).1.1
        simp only [Prog.bind_act] at g2
        unfold send at g2
        injection g2 with _ g2 _
        subst g2
        cases hs
    · have hl2 : ∀ e ∈ a2, e.act.socket = false := fun e he => hl e (by rw [g3]; exact List.mem_append_right _ he)
      cases v with
      | none => cases (own_ret_inv g2).1
      | some payload' =>
        dsimp only at g2 ⊢
        split at g2
        · cases (own_ret_inv g2).1
        · next hx =>
          rw [if_neg hx]
          rcases own_act_inv g2 with ⟨e2, e1⟩ | ⟨r, l', e1, _⟩
          · subst e1
            have := send_inj e2
            subst this
            rw [g3, List.append_nil]
            exact ⟨e2.symm, g1⟩
          · rw [e1] at hl2
            cases hl2 _ List.mem_cons_self
  · rw [h7] at h; cases (own_ret_inv h).1
  · rw [h7] at h; cases (own_panic_inv h).1

/-- While the data of the mock is modest, no response is too large for its size field. -/
theorem modest_small {sv : Server} {clock : Int} {tr : List SEv} {s : Sys} (h : Sys.Run (Sys.new sv clock) tr s) (hm : Modest sv (s.view 0)) (c : Nat) :
    SmallReplies sv (actsOf c tr) := by
  intro l1 m l2 l3 cor payload e hl hd
  obtain ⟨req, F, hb, hD, hF, ho⟩ := dispatcher_payload hl hd
  obtain ⟨ta, tb, rfl, e1, e2⟩ := actsOf_split e
  obtain ⟨tb1, tb2, rfl, e3, e4⟩ := List.filterMap_eq_append_iff.1 e2
  obtain ⟨s0, h0, hx⟩ := run_split h
  cases hx with
  | @cons _ s1 _ _ _ hb hrest =>
  obtain ⟨s2, h1, h2⟩ := run_split hrest
  have hr := h0.append (.cons hb (.nil _))
  cases hb with
  | @conn _ k _ f _ w hc hp ha =>
  obtain ⟨w0, w0', x1, x2, p2, g1, _⟩ := h0.connection_at (.nil _) hc hp
  obtain ⟨G, hG, hf⟩ := handle_reqBegin g1
  have hlt : c < s0.conns.length := by
    rcases Nat.lt_or_ge c s0.conns.length with h | h
    · exact h
    · rw [List.getElem?_eq_none h] at hc; cases hc
  have hk1 : ((s0.setView k.ctx w).setConn c { k with pc := .body (f ()) }).conns[c]? = some { k with pc := .body (f ()) } := by
    simp [Sys.setConn, Sys.setView, hlt]
  obtain ⟨k2, hk2, _, _, hctx, h3⟩ := h1.project hk1 rfl
  obtain ⟨hist, hreach, _⟩ := reachedBy hr k.ctx
  rw [hD, Prog.bind_assoc] at hf
  have e3 : actsOf c tb1 = l2 := e3
  rcases h3 with ⟨p', es, _, hx, ho', _⟩ | ⟨_, es, w', hx, ho'⟩
  · rw [hf] at hx
    obtain ⟨u1, u2, w1, rfl, y1, y2⟩ := exec_returned hx (by rw [ho', e3]; exact ho)
    have hsz := answer_size hreach y1
    obtain ⟨u3, y3, _⟩ := h2.steps k.ctx
    have hmono := mostBytes_mono (sv := sv) (steps_nodup y1.steps hreach.nodup) (y2.append y3) req
    rw [mostBytes_view] at hmono
    have := hm.bytes hb
    omega
  · rw [hf] at hx
    have h4 := hx.own
    rw [ho', e3] at h4
    have h6 := own_bind_left (fun y => (F y).bind G) ho
    have h5 := own_rest (l' := []) h6 (by rw [List.append_nil]; exact h4)
    rw [Prog.bind_ret, hF] at h5
    rcases own_act_inv h5 with ⟨x, _⟩ | ⟨_, _, x, _⟩ <;> cases x

end KM.Props
