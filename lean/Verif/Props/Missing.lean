import Verif.Props.Consumer
/-
C78: a client is told when a partition does not exist. C79: the members of a group share its partitions.
-/
namespace KM.Props
open KM Spec

/-! ### C78 -/

/-- Error code UNKNOWN_TOPIC_OR_PARTITION of the protocol. -/
def unknownPartition : I16 := 3

/-- **C78**, OffsetCommit: the error code is 3 if the partition does not exist by the time of the answer, and 0 if it existed when the request was taken up. -/
theorem C78_commit_partial {sv : Server} {clock : Int} {k : Nat} {q : CommitRequest} {c : I32} {t1 tr : List SEv} {s1 s2 : Sys}
    (h : Exchange sv clock k (.offsetCommit q) c t1 s1 tr s2) :
    ∃ x, Client.response Client.commit (sent (actsOf k tr)) = some ((c, x), []) ∧
      List.Forall₂ (fun (qt : CommitTopic) (rt : CommitRespTopic) => rt.name = qt.name ∧
        List.Forall₂ (fun (qp : CommitPartition) (rp : CommitRespPartition) => rp.partitionIndex = qp.partitionIndex ∧
          (¬ (s2.view 0).hasPartition qt.name qp.partitionIndex → rp.errorCode = unknownPartition) ∧
          ((s1.view 0).hasPartition qt.name qp.partitionIndex → rp.errorCode = 0)) qt.partitions rt.partitions) q.topics x.topics := by
  obtain ⟨x, h1, h2⟩ := C59_commit h
  refine ⟨x, h1, h2.imp ?_⟩
  rintro qt rt ⟨e1, e2⟩
  refine ⟨e1, e2.imp ?_⟩
  rintro qp rp ⟨e3, e4⟩
  refine ⟨e3, fun hn => ?_, fun hp => ?_⟩
  · rcases e4 with ⟨e4, _⟩ | ⟨_, e4, _⟩
    · exact e4
    · exact absurd e4 hn
  · rcases e4 with ⟨_, e4⟩ | ⟨e4, _⟩
    · exact absurd hp e4
    · exact e4

/-- **C78**, ListOffsets: likewise. -/
theorem C78_list_offsets_partial {sv : Server} {clock : Int} {k : Nat} {q : ListOffsetsRequest} {c : I32} {t1 tr : List SEv} {s1 s2 : Sys}
    (h : Exchange sv clock k (.listOffsets q) c t1 s1 tr s2) :
    ∃ x, Client.response Client.listOffsets (sent (actsOf k tr)) = some ((c, x), []) ∧
      List.Forall₂ (fun (qt : ListOffsetsTopic) (rt : ListOffsetsRespTopic) => rt.name = qt.name ∧
        List.Forall₂ (fun (qp : ListOffsetsPartition) (rp : ListOffsetsRespPartition) => rp.partitionIndex = qp.partitionIndex ∧
          (¬ (s2.view 0).hasPartition qt.name qp.partitionIndex → rp.errorCode = unknownPartition) ∧
          ((s1.view 0).hasPartition qt.name qp.partitionIndex → rp.errorCode = 0)) qt.partitions rt.partitions) q.topics x.topics := by
  obtain ⟨x, h1, h2⟩ := C59_list_offsets h
  refine ⟨x, h1, h2.imp ?_⟩
  rintro qt rt ⟨e1, e2⟩
  refine ⟨e1, e2.imp ?_⟩
  rintro qp rp ⟨e3, e4⟩
  refine ⟨e3, fun hn => ?_, fun hp => ?_⟩
  · rcases e4 with ⟨e4, _⟩ | ⟨_, e4, _⟩
    · exact e4
    · exact absurd e4 hn
  · rcases e4 with ⟨_, e4⟩ | ⟨e4, _⟩
    · exact absurd hp e4
    · exact e4

/-- **C78**, OffsetFetch: a partition that does not exist by the time of the answer is left out; one that existed when the request was taken up is reported with
error code 0. -/
theorem C78_offset_fetch_partial {sv : Server} {clock : Int} {k : Nat} {q : OffsetFetchRequest} {c : I32} {t1 tr : List SEv} {s1 s2 : Sys}
    (h : Exchange sv clock k (.offsetFetch q) c t1 s1 tr s2) :
    ∃ x, Client.response Client.offsetFetch (sent (actsOf k tr)) = some ((c, x), []) ∧
      ∀ qt ∈ q.topics, ∀ p ∈ qt.partitionIndexes,
        (¬ (s2.view 0).hasPartition qt.name p → ∀ rt ∈ x.topics, rt.name = qt.name → ∀ rp ∈ rt.partitions, rp.partitionIndex ≠ p) ∧
        ((s1.view 0).hasPartition qt.name p → ∃ rt ∈ x.topics, rt.name = qt.name ∧ ∃ rp ∈ rt.partitions, rp.partitionIndex = p ∧ rp.errorCode = 0) := by
  obtain ⟨x, h1, _, h2, h3⟩ := C59_offset_fetch h
  refine ⟨x, h1, fun qt hqt p hp => ⟨fun hn rt hrt hname rp hrp e => hn ?_, fun he => ?_⟩⟩
  · have := (h3 rt hrt rp hrp).2.1
    rwa [hname, e] at this
  · obtain ⟨rt, hrt, hname, rp, hrp, e⟩ := h2 qt hqt p hp he
    exact ⟨rt, hrt, hname, rp, hrp, e, (h3 rt hrt rp hrp).2.2.1⟩

/-- **C78**, Fetch (where the property is false): no partition is ever reported missing; one that does not exist by the time of the answer is reported like an empty one. -/
theorem C78_fetch_partial {sv : Server} {clock : Int} {k : Nat} {q : FetchRequest} {c : I32} {t1 tr : List SEv} {s1 s2 : Sys}
    (h : Exchange sv clock k (.fetch q) c t1 s1 tr s2) (single : ∀ t ∈ q.topics, ∃ p, t.partitions = [p])
    (hs : ∀ t p, ∀ r ∈ (s2.view 0).log t p, wireSize r < 2 ^ 31) (hl : (sent (actsOf k tr)).length < 2 ^ 31) :
    ∃ x, Client.response Client.fetch (sent (actsOf k tr)) = some ((c, 0, x), []) ∧
      List.Forall₂ (fun (qt : FetchTopic) (rt : Bytes × List Client.FetchedPartition) => rt.1 = qt.topic ∧
        List.Forall₂ (fun (par : FetchPartition) (fp : Client.FetchedPartition) => fp.partition = par.partition ∧ fp.errorCode = 0 ∧
          (¬ (s2.view 0).hasPartition qt.topic par.partition → fp.messages = [] ∧ fp.highWatermark = par.fetchOffset)) qt.partitions rt.2) q.topics x := by
  obtain ⟨x, h1, h2⟩ := C59_fetch_partial h single hs hl
  refine ⟨x, h1, h2.imp ?_⟩
  rintro qt rt ⟨e1, e2⟩
  refine ⟨e1, e2.imp ?_⟩
  rintro par fp ⟨e3, e4, n, _, _, e5, e6, _⟩
  refine ⟨e3, e4, fun hn => ?_⟩
  have hm : fp.messages = [] := by
    have : (s2.view 0).log qt.topic par.partition = [] := log_missing hn
    rw [this] at e5
    have := e5.1
    simpa using this
  refine ⟨hm, ?_⟩
  rw [e6, hm]
  simp

/-- A Fetch from a partition that does not exist. -/
def askAbsent : Request := .fetch ⟨-1, -1, 1, [⟨[116], [⟨5, 3, 1000⟩]⟩]⟩

theorem askAbsent_wf : askAbsent.WellFormed := by
  unfold askAbsent Request.WellFormed ShortList ShortStr
  decide

set_option synthInstance.maxSize 1000 in
/-- **C78** is false for Fetch: a partition that does not exist is reported without error. -/
theorem C78_false : ∃ (t1 tr : List SEv) (s1 s2 : Sys) (fp : Client.FetchedPartition), Exchange ⟨9092, []⟩ 0 0 askAbsent 7 t1 s1 tr s2 ∧
    ¬ (s2.view 0).hasPartition [116] 5 ∧ Client.response Client.fetch (sent (actsOf 0 tr)) = some ((7, 0, [([116], [fp])]), []) ∧ fp.errorCode = 0 := by
  obtain ⟨t0, h⟩ := oneRecord_run
  refine ⟨_, _, _, _, ⟨5, 0, 3, []⟩, exchange_of_play h 0 8 askAbsent 7 askAbsent_wf (by decide +kernel), ?_, by decide +kernel, rfl⟩
  unfold World.hasPartition; decide +kernel

/-! ### C79 -/

/-- **C79**, partial: whoever asks is assigned every partition that existed when the request was taken up; so no partition is without a member. -/
theorem C79_everything_partial {sv : Server} {clock : Int} {k : Nat} {g m : Bytes} {gen c : I32} {t1 tr : List SEv} {s1 s2 : Sys}
    (h : Exchange sv clock k (.syncGroup g gen m []) c t1 s1 tr s2) (hnames : ∀ t, (s2.view 0).hasTopic t → ShortStr t)
    (hl : (sent (actsOf k tr)).length < 2 ^ 31) :
    ∃ ts, Client.response Client.syncGroup (sent (actsOf k tr)) = some ((c, 0, 1, ts, none), []) ∧
      ∀ t p, (s1.view 0).hasPartition t p → ∃ ps, (t, ps) ∈ ts ∧ p ∈ ps := by
  obtain ⟨ts, h1, h2⟩ := C59_sync_group h hnames hl
  refine ⟨ts, h1, fun t p hp => ?_⟩
  have ht : (s1.view 0).hasTopic t := hp.hasTopic
  obtain ⟨x, hx, rfl⟩ := List.mem_map.1 (h2.topics t ht)
  exact ⟨x.2, hx, h2.parts x hx p hp⟩

/-- **C79**, partial: every JoinGroup is answered without error, with the same member id, generation and protocol for everybody. -/
theorem C79_join_partial {sv : Server} {clock : Int} {k : Nat} {g m pt : Bytes} {st rt c : I32} {ps : List (Bytes × Bytes)} {t1 tr : List SEv} {s1 s2 : Sys}
    (h : Exchange sv clock k (.joinGroup g st rt m pt ps) c t1 s1 tr s2) :
    Client.response Client.joinGroup (sent (actsOf k tr)) =
      some ((c, ⟨0, 0, lit ['r', 'o', 'u', 'n', 'd', 'r', 'o', 'b', 'i', 'n'], lit ['m', 'e'], lit ['1'], [(lit ['y', 'o', 'u'], none)]⟩), []) := by
  obtain ⟨ctx, es, h1, h2, _⟩ := h.run
  rw [← h2]
  obtain ⟨_, h3⟩ := h1.constant (payload := Spec.joinGroupResponse joinAnswer) rfl
  refine clientReads h3 (Client.parses_joinGroup (x := joinAnswer) ?_ ?_ ?_ ?_ ?_) (by decide)
  · unfold ShortStr; decide
  · unfold ShortStr; decide
  · unfold ShortStr; decide
  · unfold ShortList; decide
  · intro x hx
    simp only [joinAnswer, List.mem_singleton] at hx
    subst hx
    exact ⟨by unfold ShortStr; decide, fun d hd => by cases hd⟩

/-- **C79**, partial: Heartbeat and LeaveGroup are answered without error, whoever asks. -/
theorem C79_heartbeat_partial {sv : Server} {clock : Int} {k : Nat} {g m : Bytes} {gen c : I32} {t1 tr : List SEv} {s1 s2 : Sys}
    (h : Exchange sv clock k (.heartbeat g gen m) c t1 s1 tr s2 ∨ Exchange sv clock k (.leaveGroup g m) c t1 s1 tr s2) :
    Client.response Client.errorCode (sent (actsOf k tr)) = some ((c, 0), []) := by
  rcases h with h | h
  all_goals
    obtain ⟨ctx, es, h1, h2, _⟩ := h.run
    rw [← h2]
    obtain ⟨_, h3⟩ := h1.constant (payload := Spec.int16 0) rfl
    exact clientReads h3 (Client.parses_int16 0) (by decide)

/-- A mock with one record and two connections. -/
def twoMembers : Sys := stateAfter (accepts 0) oneRecord

def askJoin : Request := .joinGroup [103] 1000 1000 [] [99] [([114], [0])]

theorem askJoin_wf : askJoin.WellFormed := by
  unfold askJoin Request.WellFormed ShortList ShortStr
  decide

/-- The SyncGroup request of a member that got generation 0 and member id `1` from JoinGroup. -/
def askShare : Request := .syncGroup [103] 0 [49] []

theorem askShare_wf : askShare.WellFormed := by
  unfold askShare Request.WellFormed ShortList ShortStr
  decide

/-- The state in which connection `k` is done with the request. -/
def doneWith (k n : Nat) (req : Request) (c : I32) (s : Sys) : Sys := stateAfter [.conn k] (answered k n req c s)

def joined0 : Sys := doneWith 0 3 askJoin 7 twoMembers

def joined1 : Sys := doneWith 1 3 askJoin 7 joined0

def synced0 : Sys := doneWith 0 5 askShare 8 joined1

theorem doneWith_run {s : Sys} {t0 : List SEv} (h0 : Sys.Run (Sys.new ⟨9092, []⟩ 0) t0 s) (k n : Nat) (req : Request) (c : I32) (k' : Nat) (req' : Request) (c' : I32) :
    (∃ tr, Sys.Run (Sys.new ⟨9092, []⟩ 0) tr (doneWith k n req c s)) ∧
      ∃ tr, Sys.Run (answered k n req c s) tr (taken k' req' c' (doneWith k n req c s)) := by
  refine ⟨⟨_, (((h0.append (stateAfter_run (asks k req c) _)).append (stateAfter_run [.conn k] _)).append (stateAfter_run (List.replicate n (.conn k)) _)).append (stateAfter_run [.conn k] _)⟩,
    _, ((stateAfter_run [.conn k] _).append (stateAfter_run (asks k' req' c') _)).append (stateAfter_run [.conn k'] _)⟩

set_option synthInstance.maxSize 1000 in
/-- **C79** is false: two clients join group `g` and then ask for their assignments; nobody else asks anything, and nobody leaves. Both get the same member id, and
both are assigned the one partition. -/
theorem C79_false : ∃ (t1 t2 t3 t4 tj tk ts tt a b d : List SEv) (s1 s2 s3 s4 s5 s6 s7 s8 : Sys),
    Exchange ⟨9092, []⟩ 0 0 askJoin 7 t1 s1 tj s2 ∧ Sys.Run s2 a s3 ∧ Exchange ⟨9092, []⟩ 0 1 askJoin 7 t2 s3 tk s4 ∧ Sys.Run s4 b s5 ∧
    Exchange ⟨9092, []⟩ 0 0 askShare 8 t3 s5 ts s6 ∧ Sys.Run s6 d s7 ∧ Exchange ⟨9092, []⟩ 0 1 askShare 8 t4 s7 tt s8 ∧
    Client.response Client.syncGroup (sent (actsOf 0 ts)) = some ((8, 0, 1, [([116], [0])], none), []) ∧
    Client.response Client.syncGroup (sent (actsOf 1 tt)) = some ((8, 0, 1, [([116], [0])], none), []) := by
  obtain ⟨t0, h0⟩ := oneRecord_run
  have h : Sys.Run (Sys.new ⟨9092, []⟩ 0) (t0 ++ _) twoMembers := h0.append (stateAfter_run (accepts 0) _)
  have e1 := exchange_of_play h 0 3 askJoin 7 askJoin_wf (by decide +kernel)
  obtain ⟨⟨r1, q1⟩, a, ha⟩ := doneWith_run h 0 3 askJoin 7 1 askJoin 7
  have e2 := exchange_of_play q1 1 3 askJoin 7 askJoin_wf (by decide +kernel)
  obtain ⟨⟨r2, q2⟩, b, hb⟩ := doneWith_run q1 1 3 askJoin 7 0 askShare 8
  have e3 := exchange_of_play q2 0 5 askShare 8 askShare_wf (by decide +kernel)
  obtain ⟨⟨r3, q3⟩, d, hd⟩ := doneWith_run q2 0 5 askShare 8 1 askShare 8
  have e4 := exchange_of_play q3 1 5 askShare 8 askShare_wf (by decide +kernel)
  exact ⟨_, _, _, _, _, _, _, _, _, _, _, _, _, _, _, _, _, _, _, e1, ha, e2, hb, e3, hd, e4, by decide +kernel, by decide +kernel⟩

end KM.Props
