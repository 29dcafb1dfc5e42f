import Verif.Client
import Verif.Props.Request
/-
Properties C41-C44 (SyncGroup, JoinGroup, Metadata, FindCoordinator), stated for what a client reads from the connection.
-/
namespace KM.Props
open KM Spec

/-! ### The maps have no duplicate keys -/

def NodupStore (ds : Store) : Prop := (GoMap.keys ds).Nodup ∧ ∀ t kt, GoMap.get ds t = some kt → (GoMap.keys kt).Nodup

theorem nodupStore_set {ds : Store} (h : NodupStore ds) (t : Bytes) {kt : Topic} (hk : (GoMap.keys kt).Nodup) : NodupStore (GoMap.set ds t kt) := by
  refine ⟨GoMap.nodup_set h.1 _ _, fun t' kt' he => ?_⟩
  rw [GoMap.get_set] at he
  split at he
  · cases he; exact hk
  · exact h.2 t' kt' he

theorem nodupStore_createTopic {ds : Store} (h : NodupStore ds) (t : Bytes) : NodupStore (ds.createTopic t) := by
  unfold Store.createTopic
  split
  · exact h
  · exact nodupStore_set h t List.nodup_nil

theorem nodupStore_createPartition {ds : Store} (h : NodupStore ds) (t : Bytes) (p : I32) : NodupStore (ds.createPartition t p) := by
  unfold Store.createPartition
  split
  · exact h
  · next kt hk =>
    split
    · exact h
    · exact nodupStore_set h t (GoMap.nodup_set (h.2 t kt hk) _ _)

theorem nodupStore_updPart {ds : Store} (h : NodupStore ds) (t : Bytes) (p : I32) (f : Partition → Partition) : NodupStore (ds.updPart t p f) := by
  unfold Store.updPart
  split
  · exact h
  · next kt hk =>
    split
    · exact h
    · exact nodupStore_set h t (GoMap.nodup_set (h.2 t kt hk) _ _)

theorem step_nodup {a : Act} {w w' : World} {r : a.Resp} (h : a.step w r w') (hw : NodupStore w.ds) : NodupStore w'.ds := by
  by_cases hm : a.mutates = false
  · rw [step_same h hm]; exact hw
  · cases a <;> first | exact absurd rfl hm | skip
    all_goals simp only [Act.step] at h
    case createTopic t => subst h; exact nodupStore_createTopic hw _
    case createPartition t p => obtain ⟨_, rfl⟩ := h; exact nodupStore_createPartition hw _ _
    case post => obtain ⟨_, rfl⟩ := h; exact nodupStore_updPart hw _ _ _
    case commit => obtain ⟨_, rfl⟩ := h; exact nodupStore_updPart hw _ _ _
    case groupCommitted => obtain ⟨_, _, _, rfl⟩ := h; exact nodupStore_updPart hw _ _ _
    case setOffset => obtain ⟨_, rfl⟩ := h; exact nodupStore_updPart hw _ _ _

theorem steps_nodup {w w' : World} {tr : List Ev} (h : Steps w tr w') (hw : NodupStore w.ds) : NodupStore w'.ds := by
  induction h with
  | nil => exact hw
  | cons e hst _ ih => exact ih (step_nodup hst hw)

theorem _root_.KM.ReachedBy.nodup {h : List Ev} {w : World} (hr : ReachedBy h w) : NodupStore w.ds := by
  obtain ⟨c, hs⟩ := hr
  exact steps_nodup hs ⟨List.nodup_nil, fun _ _ h => by cases h⟩

/-! ### Complete runs of a request -/

/-- The dispatcher processes the request to its end: the request is well-formed, its header and its body each fit the read buffer
(4096 bytes), and no write to the connection fails. -/
structure RequestRun (sv : Server) (req : Request) (c : I32) (w : World) (tr : List Ev) (w' : World) (q : Prog DRes) : Prop where
  wellFormed : req.WellFormed
  run : ∃ client n, (∀ x ∈ client, ShortStr x) ∧ (header req.api.1 req.api.2 c client).length ≤ 4096 ∧
    Exec w (dispatcher sv ⟨req.message c client⟩ n) tr w' q
  body : req.body.length ≤ 4096
  sentAll : AllSent (own tr)
  over : Over q

theorem RequestRun.cases {sv : Server} {req : Request} {c : I32} {w w' : World} {tr : List Ev} {q : Prog DRes}
    (h : RequestRun sv req c w tr w' q) :
    (q = .panic ∧ Exec w (answer sv req) tr w' .panic ∧ sent (own tr) = []) ∨
    ∃ t1 t2 w1, tr = t1 ++ t2 ∧ Steps w1 t2 w' ∧ ((Exec w (answer sv req) t1 w1 (.ret none) ∧ q = .ret .err ∧ sent (own tr) = []) ∨
      ∃ payload, Exec w (answer sv req) t1 w1 (.ret (some payload)) ∧ q = .ret .done ∧ sent (own tr) = responseBytes c payload) := by
  obtain ⟨client, n, h1, h2, h3⟩ := h.run
  rcases request_run h.wellFormed h1 h2 h.body h3 h.sentAll h.over with h4 | ⟨t1, t2, w1, rfl, hs, h4⟩
  · exact .inl h4
  · refine .inr ⟨t1, t2, w1, rfl, hs, ?_⟩
    rcases h4 with h4 | ⟨payload, h4, h5, h6, _⟩
    · exact .inl h4
    · exact .inr ⟨payload, h4, h5, h6⟩

/-- What the client reads on the connection: a response with the correlation id of its request and the body `x`, nothing missing and
nothing left over. -/
def ClientReads {α : Type} (p : Client.Parse α) (tr : List Ev) (c : I32) (x : α) : Prop :=
  Client.response p (sent (own tr)) = some ((c, x), [])

theorem clientReads {α : Type} {p : Client.Parse α} {tr : List Ev} {c : I32} {payload : Bytes} {x : α}
    (h : sent (own tr) = responseBytes c payload) (hp : Client.Parses p payload x) (hl : 4 + payload.length < 2 ^ 31) :
    ClientReads p tr c x := by
  unfold ClientReads
  rw [h]
  exact (Client.parses_response hp c hl).whole

/-- A request whose answer does not depend on anything. -/
theorem RequestRun.constant {sv : Server} {req : Request} {c : I32} {w w' : World} {tr : List Ev} {q : Prog DRes}
    (h : RequestRun sv req c w tr w' q) {payload : Bytes} (ha : answer sv req = .ret (some payload)) :
    q = .ret .done ∧ sent (own tr) = responseBytes c payload := by
  rcases h.cases with ⟨_, h1, _⟩ | ⟨t1, t2, w1, rfl, _, ⟨h1, _⟩ | ⟨payload', h1, h2, h3⟩⟩
  · rw [ha] at h1; exact (exec_ret_panic h1).elim
  · rw [ha] at h1; obtain ⟨h2, _⟩ := exec_ret_inv h1; cases h2
  · rw [ha] at h1; obtain ⟨h4, _⟩ := exec_ret_inv h1; cases h4
    exact ⟨h2, h3⟩

/-! ### C42 -/

/-- **C42**: every JoinGroup request is answered, and the leader in the answer is not the member id given to the client. -/
theorem C42_never_leader {g m pt : Bytes} {st rt : I32} {ps : List (Bytes × Bytes)} {sv : Server} {c : I32} {w w' : World} {tr : List Ev}
    {q : Prog DRes} (h : RequestRun sv (.joinGroup g st rt m pt ps) c w tr w' q) :
    q = .ret .done ∧ ∃ x : JoinResponse, ClientReads Client.joinGroup tr c x ∧ x.errorCode = 0 ∧ x.leader ≠ x.memberId := by
  obtain ⟨h1, h2⟩ := h.constant (payload := Spec.joinGroupResponse joinAnswer) rfl
  refine ⟨h1, joinAnswer, clientReads h2 (Client.parses_joinGroup ?_ ?_ ?_ ?_ ?_) (by decide), rfl, by decide⟩
  · unfold ShortStr; decide
  · unfold ShortStr; decide
  · unfold ShortStr; decide
  · unfold ShortList; decide
  · intro x hx
    simp only [joinAnswer, List.mem_singleton] at hx
    subst hx
    exact ⟨by unfold ShortStr; decide, fun d hd => by cases hd⟩

/-- **C42**: a SyncGroup request with assignments is rejected, without an answer. -/
theorem C42_assignments_rejected {g m : Bytes} {gen : I32} {as : List (Bytes × Bytes)} (has : as ≠ []) {sv : Server} {c : I32} {w w' : World}
    {tr : List Ev} {q : Prog DRes} (h : RequestRun sv (.syncGroup g gen m as) c w tr w' q) : q = .ret .err ∧ sent (own tr) = [] := by
  have ha : answer sv (.syncGroup g gen m as) = .ret none := by
    simp only [answer]
    rw [if_pos (by cases as <;> simp_all)]
  rcases h.cases with ⟨_, h1, _⟩ | ⟨t1, t2, w1, rfl, _, ⟨h1, h2, h3⟩ | ⟨payload', h1, h2, h3⟩⟩
  · rw [ha] at h1; exact (exec_ret_panic h1).elim
  · exact ⟨h2, h3⟩
  · rw [ha] at h1; obtain ⟨h4, _⟩ := exec_ret_inv h1; cases h4

/-! ### C43, C44 -/

theorem metadata_length (port : Nat) (topics : List Bytes) :
    (Spec.metadataResponse (metadataFor port topics)).length ≤ 33 + 18 * (array str topics).length := by
  have hf : ∀ ts : List Bytes, ((ts.map fun t => (⟨0, t, false, [⟨0, 2, 100, [1], [1]⟩]⟩ : MetaTopic)).flatMap (fun t : MetaTopic =>
      Spec.int16 t.errorCode ++ str t.name ++ Spec.bool t.isInternal ++
        array (fun p : MetaPartition => Spec.int16 p.errorCode ++ Spec.int32 p.partitionIndex ++ Spec.int32 p.leaderId ++ array Spec.int32 p.replicas ++
          array Spec.int32 p.isr) t.partitions)).length ≤ 18 * (ts.flatMap str).length := by
    intro ts
    induction ts with
    | nil => simp
    | cons t ts ih =>
      simp only [List.map_cons, List.flatMap_cons, List.length_append] at ih ⊢
      have e : ∀ p : MetaPartition, p = ⟨0, 2, 100, [1], [1]⟩ → (array (fun p : MetaPartition => Spec.int16 p.errorCode ++ Spec.int32 p.partitionIndex ++
          Spec.int32 p.leaderId ++ array Spec.int32 p.replicas ++ array Spec.int32 p.isr) [p]).length = 30 := by rintro _ rfl; decide
      have e1 := e _ rfl
      have e2 : (str t).length = 2 + t.length := by simp [str, Spec.int16]; omega
      have e3 : (Spec.int16 0).length = 2 := rfl
      have e4 : (Spec.bool false).length = 1 := rfl
      rw [e1, e2, e3, e4]
      omega
  have := hf topics
  have e0 : (array (fun b : Broker => Spec.int32 b.nodeId ++ str b.host ++ Spec.int32 b.port ++ nullableStr b.rack) (metadataFor port topics).brokers).length = 25 := by
    simp [metadataFor, array, Spec.int32, str, Spec.int16, nullableStr, lit]
  simp only [Spec.metadataResponse, List.length_append, e0]
  have e5 : ∀ v, (Spec.int32 v).length = 4 := fun _ => rfl
  simp only [array, List.length_append, e5, metadataFor] at this ⊢
  omega

theorem metadata_run {topics : List Bytes} {sv : Server} {c : I32} {w w' : World} {tr : List Ev} {q : Prog DRes}
    (h : RequestRun sv (.metadata topics) c w tr w' q) : q = .ret .done ∧ ClientReads Client.metadata tr c (metadataFor sv.port topics) := by
  obtain ⟨h1, h2⟩ := h.constant (payload := Spec.metadataResponse (metadataFor sv.port topics)) rfl
  obtain ⟨w1, w2⟩ := h.wellFormed
  have hb : (array str topics).length ≤ 4096 := h.body
  have hl := metadata_length sv.port topics
  refine ⟨h1, clientReads h2 (Client.parses_metadata ?_ ?_ ?_ ?_) (by omega)⟩
  · unfold ShortList; simp [metadataFor]
  · intro b hb
    simp only [metadataFor, List.mem_singleton] at hb
    subst hb
    exact ⟨by unfold ShortStr; simp [lit], by simp⟩
  · unfold ShortList at w1 ⊢
    simpa [metadataFor] using w1
  · intro t ht
    simp only [metadataFor, List.mem_map] at ht
    obtain ⟨t, ht, rfl⟩ := ht
    refine ⟨w2 t ht, by unfold ShortList; simp, ?_⟩
    intro p hp
    simp only [List.mem_singleton] at hp
    subst hp
    exact ⟨by unfold ShortList; simp, by unfold ShortList; simp⟩

/-- **C43**: a Metadata request is answered with exactly one broker, whose port is the server's, and with the requested topics, each once and
in the order of the request, without errors; every partition's leader is that broker. A FindCoordinator request to the same server is
answered with the same node, host and port. -/
theorem C43_leads_here {topics : List Bytes} {key : Bytes} {sv : Server} (hport : sv.port < 2 ^ 31) {c₁ c₂ : I32} {w₁ w₁' w₂ w₂' : World}
    {tr₁ tr₂ : List Ev} {q₁ q₂ : Prog DRes} (h₁ : RequestRun sv (.metadata topics) c₁ w₁ tr₁ w₁' q₁)
    (h₂ : RequestRun sv (.findCoordinator key) c₂ w₂ tr₂ w₂' q₂) :
    q₁ = .ret .done ∧ q₂ = .ret .done ∧ ∃ (x : MetaResponse) (y : CoordinatorResponse) (b : Broker),
      ClientReads Client.metadata tr₁ c₁ x ∧ ClientReads Client.findCoordinator tr₂ c₂ y ∧
      x.brokers = [b] ∧ b.port.toInt = sv.port ∧ b.host = lit ['l', 'o', 'c', 'a', 'l', 'h', 'o', 's', 't'] ∧
      x.topics.map (·.name) = topics ∧ (∀ t ∈ x.topics, t.errorCode = 0 ∧ ∀ p ∈ t.partitions, p.errorCode = 0 ∧ p.leaderId = b.nodeId) ∧
      y.errorCode = 0 ∧ y.nodeId = b.nodeId ∧ y.host = b.host ∧ y.port = b.port := by
  obtain ⟨m1, m2⟩ := metadata_run h₁
  obtain ⟨f1, f2⟩ := h₂.constant (payload := Spec.findCoordinatorResponse (coordinatorFor sv.port)) rfl
  refine ⟨m1, f1, metadataFor sv.port topics, coordinatorFor sv.port, _, m2,
    clientReads f2 (Client.parses_findCoordinator (by unfold ShortStr; simp [coordinatorFor, lit])) ?_, rfl, ?_, rfl, ?_, ?_, rfl, rfl, rfl, rfl⟩
  · simp [Spec.findCoordinatorResponse, coordinatorFor, lit, str, Spec.int32, Spec.int16]
  · have : (BitVec.ofNat 32 sv.port).toNat = sv.port := by rw [BitVec.toNat_ofNat]; omega
    show (BitVec.ofNat 32 sv.port).toInt = _
    rw [BitVec.toInt_eq_toNat_of_lt (by omega), this]
  · simp [metadataFor, Function.comp_def]
  · intro t ht
    simp only [metadataFor, List.mem_map] at ht
    obtain ⟨t, _, rfl⟩ := ht
    refine ⟨rfl, fun p hp => ?_⟩
    simp only [List.mem_singleton] at hp
    subst hp
    exact ⟨rfl, rfl⟩

/-- C44, what the code does: whatever partitions exist, Metadata reports partition 2 and no other for every topic (existing or not). So
the report is right for topics with exactly that partition. Missing for the full statement: all other topics, for which it is false
(`C44_false`). -/
theorem C44_partition_two_partial {topics : List Bytes} {sv : Server} {c : I32} {w w' : World} {tr : List Ev} {q : Prog DRes}
    (h : RequestRun sv (.metadata topics) c w tr w' q) :
    ∃ x : MetaResponse, ClientReads Client.metadata tr c x ∧ x.topics.map (·.name) = topics ∧
      (∀ t ∈ x.topics, t.partitions.map (·.partitionIndex) = [2]) ∧
      (∀ t ∈ x.topics, (∀ p, w.hasPartition t.name p ↔ p = 2) → ∀ p, p ∈ t.partitions.map (·.partitionIndex) ↔ w.hasPartition t.name p) := by
  have h2 : ∀ t ∈ (metadataFor sv.port topics).topics, t.partitions.map (·.partitionIndex) = [2] := by
    intro t ht
    simp only [metadataFor, List.mem_map] at ht
    obtain ⟨t, _, rfl⟩ := ht
    rfl
  refine ⟨_, (metadata_run h).2, by simp [metadataFor, Function.comp_def], h2, fun t ht hp p => ?_⟩
  rw [h2 t ht, hp]; simp

/-! ### C41 -/

/-- The keys of a topic's partition map are its existing partitions. -/
theorem partition_indexes {w : World} (hw : w.WF) (hn : NodupStore w.ds) {t : Bytes} {kt : Topic} (hk : GoMap.get w.ds t = some kt) :
    (kt.map fun e => e.2.index).Nodup ∧ ∀ p, p ∈ kt.map (fun e => e.2.index) ↔ w.hasPartition t p := by
  have hkn := hn.2 t kt hk
  have e : kt.map (fun e => e.2.index) = GoMap.keys kt := by
    unfold GoMap.keys
    refine List.map_congr_left fun x hx => ?_
    have hg : GoMap.get kt x.1 = some x.2 := GoMap.mem_get hkn hx
    exact (hw t x.1 x.2 (by unfold Store.part?; rw [hk]; exact hg)).1
  rw [e]
  refine ⟨hkn, fun p => ?_⟩
  rw [GoMap.mem_keys_iff]
  unfold World.hasPartition Store.part?
  rw [hk]; rfl

/-- The topics of an assignment, against the stores at the start and at the end of the call. -/
structure Assigned (w w' : World) (ts : List (Bytes × List I32)) : Prop where
  /-- each topic once -/
  once : (ts.map Prod.fst).Nodup
  /-- each partition of a topic once -/
  partsOnce : ∀ x ∈ ts, x.2.Nodup
  /-- all topics that existed at the start -/
  topics : ∀ t, w.hasTopic t → t ∈ ts.map Prod.fst
  /-- no topic that does not exist at the end -/
  topicsExist : ∀ x ∈ ts, w'.hasTopic x.1
  /-- all partitions that existed at the start -/
  parts : ∀ x ∈ ts, ∀ p, w.hasPartition x.1 p → p ∈ x.2
  /-- no partition that does not exist at the end -/
  partsExist : ∀ x ∈ ts, ∀ p ∈ x.2, w'.hasPartition x.1 p

theorem assignedPartitions_run {w w' : World} {tr : List Ev} {ts : List (Bytes × List I32)} (hw : w.WF) (hn : NodupStore w.ds)
    (h : Exec w assignedPartitions tr w' (.ret ts)) : Assigned w w' ts := by
  obtain ⟨t1, w1, names, w2, t2, h1, h2, h3, rfl⟩ := exec_act_ret h
  obtain ⟨rfl, hp⟩ := h2
  have s1 : Steps w t1 w2 := h1.1
  have hn1 := steps_nodup s1 hn
  have hf := forEach_ret h3
  have key : List.Forall₂ (fun (name : Bytes) (x : Bytes × List I32) => x.1 = name ∧ x.2.Nodup ∧
      (∀ p, w2.hasPartition x.1 p → p ∈ x.2) ∧ ∀ p ∈ x.2, w'.hasPartition x.1 p) names ts := by
    refine List.Forall₂.imp ?_ hf
    rintro name x ⟨t0, t, t3, wa, wb, rfl, ha, hb, hc⟩
    obtain ⟨t4, w4, ps, w5, t5, h4, h5, h6, rfl⟩ := exec_act_ret hb
    obtain ⟨rfl, kt, hk, hps⟩ := h5
    obtain ⟨h7, h8⟩ := exec_ret_inv h6
    cases h7
    have s2 : Steps w2 (t0 ++ t4) w5 := ha.append h4.1
    have s3 : Steps w5 (t5 ++ t3) w' := h8.1.append hc
    obtain ⟨k1, k2⟩ := partition_indexes ((s1.append s2).wf hw) (steps_nodup s2 hn1) hk
    refine ⟨rfl, hps.nodup_iff.2 k1, fun p hp => ?_, fun p hp => ?_⟩
    · rw [hps.mem_iff, k2]; exact s2.hasPartition hp
    · rw [hps.mem_iff, k2] at hp; exact s3.hasPartition hp
  have hnames : ts.map Prod.fst = names := by
    clear hf hp h3 h
    induction key with
    | nil => rfl
    | cons hx _ ih => rw [List.map_cons, hx.1, ih]
  have mem : ∀ x ∈ ts, x.2.Nodup ∧ (∀ p, w2.hasPartition x.1 p → p ∈ x.2) ∧ ∀ p ∈ x.2, w'.hasPartition x.1 p := by
    intro x hx
    obtain ⟨i, hi⟩ := List.getElem?_of_mem hx
    obtain ⟨_, _, h⟩ := forall₂_get key hi
    exact h.2
  refine ⟨?_, fun x hx => (mem x hx).1, fun t ht => ?_, fun x hx => ?_, fun x hx p hp => (mem x hx).2.1 p (s1.hasPartition hp),
    fun x hx => (mem x hx).2.2⟩
  · rw [hnames]; exact hp.nodup_iff.2 hn1.1
  · rw [hnames, hp.mem_iff, GoMap.mem_keys_iff]; exact s1.hasTopic ht
  · have hx1 : x.1 ∈ names := by rw [← hnames]; exact List.mem_map.2 ⟨x, hx, rfl⟩
    rw [hp.mem_iff, GoMap.mem_keys_iff] at hx1
    exact h3.steps.hasTopic hx1

theorem array_length_ge {α : Type} (f : α → Bytes) (xs : List α) (hf : ∀ x, 1 ≤ (f x).length) : xs.length ≤ (array f xs).length := by
  have : xs.length ≤ (xs.flatMap f).length := by
    induction xs with
    | nil => simp
    | cons x xs ih => have := hf x; simp only [List.flatMap_cons, List.length_append, List.length_cons]; omega
  simp only [array, List.length_append]; omega

theorem flatMap_mem_length {α : Type} (f : α → Bytes) {xs : List α} {x : α} (h : x ∈ xs) : (f x).length ≤ (array f xs).length := by
  have : (f x).length ≤ (xs.flatMap f).length := by
    induction xs with
    | nil => cases h
    | cons y xs ih =>
      rw [List.flatMap_cons, List.length_append]
      rcases List.mem_cons.1 h with rfl | h
      · omega
      · have := ih h; omega
  simp only [array, List.length_append]; omega

/-- **C41**: from any reachable store, a SyncGroup request without assignments is answered with an assignment that holds every topic which
existed when the request came, once, with every partition which existed then, once; and nothing that does not exist when the answer has been
sent - while topics and partitions are being created by others, and whatever order the maps are iterated in. (Topic names must be
representable as STRING and the response must be smaller than 2 GiB.) -/
theorem C41_assignment {hist : List Ev} {w w' : World} (hr : ReachedBy hist w) {g m : Bytes} {gen : I32} {sv : Server} {c : I32} {tr : List Ev}
    {q : Prog DRes} (h : RequestRun sv (.syncGroup g gen m []) c w tr w' q) (hnames : ∀ t, w'.hasTopic t → ShortStr t)
    (hsize : (sent (own tr)).length < 2 ^ 31) :
    q = .ret .done ∧ ∃ ts, ClientReads Client.syncGroup tr c (0, 1, ts, none) ∧ Assigned w w' ts := by
  have ha : answer sv (.syncGroup g gen m []) =
      assignedPartitions.map fun ts => some (Spec.syncGroupResponse 0 (Spec.memberAssignment 1 ts none)) := rfl
  rcases h.cases with ⟨_, h1, _⟩ | ⟨t1, t2, w1, rfl, hs, ⟨h1, _⟩ | ⟨payload, h1, h2, h3⟩⟩
  · obtain ⟨_, h2, _⟩ := answer_panic h1; cases h2
  · obtain ⟨_, _, _, _, h2, h3⟩ := answer_none h1; cases h2; exact absurd rfl h3
  · refine ⟨h2, ?_⟩
    rw [ha] at h1
    obtain ⟨t3, t4, w2, ts, h4, h5, rfl⟩ := exec_bind_ret h1
    obtain ⟨h6, h7⟩ := exec_ret_inv h5
    cases h6
    have hA := assignedPartitions_run hr.wf hr.nodup h4
    have s2 : Steps w2 (t4 ++ t2) w' := h7.1.append hs
    rw [h3] at hsize
    simp only [responseBytes, List.length_append] at hsize
    have hlen : (Spec.memberAssignment 1 ts none).length ≤ (Spec.syncGroupResponse 0 (Spec.memberAssignment 1 ts none)).length := by
      simp only [Spec.syncGroupResponse, bytes, List.length_append]; omega
    have harr : (array (fun t : Bytes × List I32 => str t.1 ++ array Spec.int32 t.2) ts).length ≤ (Spec.memberAssignment 1 ts none).length := by
      simp only [Spec.memberAssignment, List.length_append]; omega
    have e4 : ∀ v, (Spec.int32 v).length = 4 := fun _ => rfl
    rw [e4, e4] at hsize
    refine ⟨ts, clientReads h3 (Client.parses_syncGroup ?_ ?_ (by simp) ?_) (by omega), ⟨hA.once, hA.partsOnce, hA.topics, ?_, hA.parts, ?_⟩⟩
    · have := array_length_ge (fun t : Bytes × List I32 => str t.1 ++ array Spec.int32 t.2) ts
        (fun x => by simp [str, Spec.int16])
      unfold ShortList; omega
    · intro x hx
      refine ⟨hnames _ (s2.hasTopic (hA.topicsExist x hx)), ?_⟩
      have h8 := flatMap_mem_length (fun t : Bytes × List I32 => str t.1 ++ array Spec.int32 t.2) hx
      have h9 := array_length_ge Spec.int32 x.2 (fun _ => by simp [Spec.int32])
      simp only [List.length_append] at h8
      unfold ShortList; omega
    · unfold ShortList; omega
    · exact fun x hx => s2.hasTopic (hA.topicsExist x hx)
    · exact fun x hx p hp => s2.hasPartition (hA.partsExist x hx p hp)

/-- **C41**, exactly: when nobody creates a topic or partition during the call, the assignment is exactly the existing topics, each once, with
exactly their existing partitions. -/
theorem C41_exact {hist : List Ev} {w w' : World} (hr : ReachedBy hist w) {g m : Bytes} {gen : I32} {sv : Server} {c : I32} {tr : List Ev}
    {q : Prog DRes} (h : RequestRun sv (.syncGroup g gen m []) c w tr w' q) (hnames : ∀ t, w'.hasTopic t → ShortStr t)
    (hsize : (sent (own tr)).length < 2 ^ 31)
    (ht : ∀ t, (⟨false, .createTopic t, ()⟩ : Ev) ∉ tr) (hp : ∀ t p, (⟨false, .createPartition t p, ()⟩ : Ev) ∉ tr) :
    ∃ ts, ClientReads Client.syncGroup tr c (0, 1, ts, none) ∧ (ts.map Prod.fst).Nodup ∧ (∀ t, t ∈ ts.map Prod.fst ↔ w.hasTopic t) ∧
      ∀ x ∈ ts, x.2.Nodup ∧ ∀ p, p ∈ x.2 ↔ w.hasPartition x.1 p := by
  obtain ⟨_, ts, h1, h2⟩ := C41_assignment hr h hnames hsize
  obtain ⟨client, n, _, _, h3⟩ := h.run
  obtain ⟨_, _, h4, h5⟩ := C17_no_effect_partial (by
    simp only [Request.message, header, Request.api, Spec.int16, List.cons_append, List.take_succ_cons, List.nil_append, List.take_zero, commitPair]
    decide) h3
  refine ⟨ts, h1, h2.once, fun t => ⟨fun hm => ?_, h2.topics t⟩, fun x hx => ⟨h2.partsOnce x hx, fun p => ⟨fun hm => ?_, h2.parts x hx p⟩⟩⟩
  · obtain ⟨x, hx, rfl⟩ := List.mem_map.1 hm
    exact (h4 _ (h2.topicsExist x hx)).resolve_right (ht _)
  · exact (h5 _ _ (h2.partsExist x hx p hm)).resolve_right (hp _ _)

/-! ### Examples and counterexamples -/

/-- The test creates partition 5 of "t" and "u", then partition 2 of "u". -/
def groupRun := Prog.run (go 20) (World.init 0)
  ((createPartitionTopics 5 [lit ['t'], lit ['u']]).bind fun _ => createPartitionTopics 2 [lit ['u']])

def groupWorld : World := groupRun.2.1

theorem groupWorld_reached : ReachedBy groupRun.1 groupWorld := ⟨0, (Prog.run_sound _ _ _).steps⟩

/-- A complete run of a request on a world, by the scheduler. -/
theorem requestRun_of {sv : Server} {req : Request} {c : I32} {w w' : World} {tr : List Ev} {r : DRes} (h : req.WellFormed)
    (hh : (header req.api.1 req.api.2 c none).length ≤ 4096) (hb : req.body.length ≤ 4096)
    (he : Exec w ((answer sv req).bind fun
      | none => .ret .err
      | some payload => send c payload) tr w' (.ret r)) (ha : AllSent (own tr)) : RequestRun sv req c w tr w' (.ret r) := by
  refine ⟨h, ⟨none, 0, by simp, hh, ?_⟩, hb, ha, trivial⟩
  rw [dispatcher_message h sv c none (by simp) hh hb]
  exact he

/-- C41: the hypotheses are met, and the client reads both topics with their partitions. -/
example : ∃ tr w' ts, RequestRun ⟨9092, []⟩ (.syncGroup (lit ['g']) 0 (lit ['1']) []) 7 groupWorld tr w' (.ret .done) ∧
    (sent (own tr)).length < 2 ^ 31 ∧ (∀ t, w'.hasTopic t → ShortStr t) ∧ (∀ t, (⟨false, .createTopic t, ()⟩ : Ev) ∉ tr) ∧
    ClientReads Client.syncGroup tr 7 (0, 1, ts, none) ∧ ts = [(lit ['t'], [5]), (lit ['u'], [5, 2])] := by
  have hw : (Request.syncGroup (lit ['g']) 0 (lit ['1']) []).WellFormed := by
    simp [Request.WellFormed, ShortStr, ShortList, lit]
  refine ⟨_, _, _, requestRun_of hw (by decide) (by decide) (Prog.run_ret (sch := go 12) rfl) (allSent_of rfl), by decide +kernel, ?_, ?_, ?_, rfl⟩
  · intro t ht
    have : t ∈ GoMap.keys groupWorld.ds := (GoMap.mem_keys_iff _ _).2 ht
    have e : GoMap.keys groupWorld.ds = [lit ['t'], lit ['u']] := by decide +kernel
    rw [e] at this
    simp only [List.mem_cons, List.not_mem_nil, or_false] at this
    rcases this with rfl | rfl <;> (unfold ShortStr; decide)
  · intro t ht
    have hall : ∀ {l : List Ev}, l.all (·.mine) = true → (⟨false, .createTopic t, ()⟩ : Ev) ∈ l → False := fun h1 h2 => by
      cases List.all_eq_true.1 h1 _ h2
    exact hall (by decide +kernel) ht
  · unfold ClientReads; rfl

/-- C44 is false: topic "t" has partition 5 only, the client is told partition 2. -/
theorem C44_false : ∃ tr w' x, RequestRun ⟨9092, []⟩ (.metadata [lit ['t']]) 7 groupWorld tr w' (.ret .done) ∧
    ClientReads Client.metadata tr 7 x ∧ x.topics.map (fun t => (t.name, t.partitions.map (·.partitionIndex))) = [(lit ['t'], [2])] ∧
    ¬ groupWorld.hasPartition (lit ['t']) 2 ∧ groupWorld.hasPartition (lit ['t']) 5 := by
  have hw : (Request.metadata [lit ['t']]).WellFormed := by
    simp [Request.WellFormed, ShortStr, ShortList, lit]
  have hr : ∃ tr w', RequestRun ⟨9092, []⟩ (.metadata [lit ['t']]) 7 groupWorld tr w' (.ret .done) :=
    ⟨_, _, requestRun_of hw (by decide) (by decide) (Prog.run_ret (sch := go 12) rfl) (allSent_of rfl)⟩
  obtain ⟨tr, w', hr⟩ := hr
  refine ⟨tr, w', _, hr, (metadata_run hr).2, rfl, ?_, ?_⟩
  · unfold World.hasPartition; decide +kernel
  · unfold World.hasPartition; decide +kernel

/-- C42, C43: the hypotheses are met. -/
example : ∃ tr w', RequestRun ⟨9092, []⟩ (.joinGroup (lit ['g']) 1000 1000 [] (lit ['c']) [(lit ['r', 'r'], [0, 1])]) 7 groupWorld tr w' (.ret .done) :=
  ⟨_, _, requestRun_of (by simp [Request.WellFormed, ShortStr, ShortList, lit]) (by decide) (by decide) (Prog.run_ret (sch := go 12) rfl) (allSent_of rfl)⟩
example : ∃ tr w', RequestRun ⟨9092, []⟩ (.syncGroup (lit ['g']) 1 (lit ['1']) [(lit ['1'], [0])]) 7 groupWorld tr w' (.ret .err) :=
  ⟨_, _, requestRun_of (by simp [Request.WellFormed, ShortStr, ShortList, lit]) (by decide) (by decide) (Prog.run_ret (sch := go 12) rfl) (allSent_of rfl)⟩
example : ∃ tr w', RequestRun ⟨9092, []⟩ (.findCoordinator (lit ['g'])) 7 groupWorld tr w' (.ret .done) :=
  ⟨_, _, requestRun_of (by simp [Request.WellFormed, ShortStr, lit]) (by decide) (by decide) (Prog.run_ret (sch := go 12) rfl) (allSent_of rfl)⟩

end KM.Props
