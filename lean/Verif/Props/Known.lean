import Verif.Props.Later
import Verif.Props.Origin
/-
Property C127: a client that has been told of a partition is not told later that it does not exist.
-/
namespace KM.Props
open KM Spec

/-- A request that begins in state `s1` and ends in state `s2` is answered with something that shows that partition `p` of topic `t` exists: an offset committed, an offset found, an offset
fetched, a partition assigned, a message of it. -/
inductive Shown (s1 s2 : Sys) (t : Bytes) (p : I32) : Prop where
  | commit {sv : Server} {clock : Int} {k : Nat} {q : CommitRequest} {c : I32} {t1 tr : List SEv} {x : CommitResponse} {rt : CommitRespTopic} {rp : CommitRespPartition}
      (h : Exchange sv clock k (.offsetCommit q) c t1 s1 tr s2) (e : Client.response Client.commit (sent (actsOf k tr)) = some ((c, x), []))
      (ht : rt ∈ x.topics) (hn : rt.name = t) (hp : rp ∈ rt.partitions) (hi : rp.partitionIndex = p) (hz : rp.errorCode = 0)
  | listOffsets {sv : Server} {clock : Int} {k : Nat} {q : ListOffsetsRequest} {c : I32} {t1 tr : List SEv} {x : ListOffsetsResponse} {rt : ListOffsetsRespTopic}
      {rp : ListOffsetsRespPartition}
      (h : Exchange sv clock k (.listOffsets q) c t1 s1 tr s2) (e : Client.response Client.listOffsets (sent (actsOf k tr)) = some ((c, x), []))
      (ht : rt ∈ x.topics) (hn : rt.name = t) (hp : rp ∈ rt.partitions) (hi : rp.partitionIndex = p) (hz : rp.errorCode = 0)
  | offsetFetch {sv : Server} {clock : Int} {k : Nat} {q : OffsetFetchRequest} {c : I32} {t1 tr : List SEv} {x : OffsetFetchResponse} {rt : OffsetFetchRespTopic}
      {rp : OffsetFetchRespPartition}
      (h : Exchange sv clock k (.offsetFetch q) c t1 s1 tr s2) (e : Client.response Client.offsetFetch (sent (actsOf k tr)) = some ((c, x), []))
      (ht : rt ∈ x.topics) (hn : rt.name = t) (hp : rp ∈ rt.partitions) (hi : rp.partitionIndex = p)
  | syncGroup {sv : Server} {clock : Int} {k : Nat} {g m : Bytes} {gen c : I32} {t1 tr : List SEv} {ts : List (Bytes × List I32)} {ps : List I32}
      (h : Exchange sv clock k (.syncGroup g gen m []) c t1 s1 tr s2) (hnames : ∀ t, (s2.view 0).hasTopic t → ShortStr t) (hl : (sent (actsOf k tr)).length < 2 ^ 31)
      (e : Client.response Client.syncGroup (sent (actsOf k tr)) = some ((c, 0, 1, ts, none), [])) (ht : (t, ps) ∈ ts) (hp : p ∈ ps)
  | fetch {sv : Server} {clock : Int} {k : Nat} {q : FetchRequest} {c : I32} {t1 tr : List SEv} {x : List (Bytes × List Client.FetchedPartition)} {fps : List Client.FetchedPartition}
      {fp : Client.FetchedPartition}
      (h : Exchange sv clock k (.fetch q) c t1 s1 tr s2) (single : ∀ t ∈ q.topics, ∃ p, t.partitions = [p]) (hs : ∀ t p, ∀ r ∈ (s2.view 0).log t p, wireSize r < 2 ^ 31)
      (hl : (sent (actsOf k tr)).length < 2 ^ 31) (e : Client.response Client.fetch (sent (actsOf k tr)) = some ((c, 0, x), []))
      (ht : (t, fps) ∈ x) (hp : fp ∈ fps) (hi : fp.partition = p) (hm : fp.messages ≠ [])

/-- A request that begins in state `s1` and ends in state `s2` is answered with something that shows that partition `p` of topic `t` does not exist: an error code, an offset left out, a partition
left out of an assignment. -/
inductive Denied (s1 s2 : Sys) (t : Bytes) (p : I32) : Prop where
  | commit {sv : Server} {clock : Int} {k : Nat} {q : CommitRequest} {c : I32} {t1 tr : List SEv} {x : CommitResponse} {rt : CommitRespTopic} {rp : CommitRespPartition}
      (h : Exchange sv clock k (.offsetCommit q) c t1 s1 tr s2) (e : Client.response Client.commit (sent (actsOf k tr)) = some ((c, x), []))
      (ht : rt ∈ x.topics) (hn : rt.name = t) (hp : rp ∈ rt.partitions) (hi : rp.partitionIndex = p) (hz : rp.errorCode ≠ 0)
  | listOffsets {sv : Server} {clock : Int} {k : Nat} {q : ListOffsetsRequest} {c : I32} {t1 tr : List SEv} {x : ListOffsetsResponse} {rt : ListOffsetsRespTopic}
      {rp : ListOffsetsRespPartition}
      (h : Exchange sv clock k (.listOffsets q) c t1 s1 tr s2) (e : Client.response Client.listOffsets (sent (actsOf k tr)) = some ((c, x), []))
      (ht : rt ∈ x.topics) (hn : rt.name = t) (hp : rp ∈ rt.partitions) (hi : rp.partitionIndex = p) (hz : rp.errorCode ≠ 0)
  | offsetFetch {sv : Server} {clock : Int} {k : Nat} {q : OffsetFetchRequest} {c : I32} {t1 tr : List SEv} {x : OffsetFetchResponse} {qt : OffsetFetchTopic}
      (h : Exchange sv clock k (.offsetFetch q) c t1 s1 tr s2) (e : Client.response Client.offsetFetch (sent (actsOf k tr)) = some ((c, x), []))
      (hq : qt ∈ q.topics) (hn : qt.name = t) (hp : p ∈ qt.partitionIndexes) (hz : ∀ rt ∈ x.topics, rt.name = t → ∀ rp ∈ rt.partitions, rp.partitionIndex ≠ p)
  | syncGroup {sv : Server} {clock : Int} {k : Nat} {g m : Bytes} {gen c : I32} {t1 tr : List SEv} {ts : List (Bytes × List I32)}
      (h : Exchange sv clock k (.syncGroup g gen m []) c t1 s1 tr s2) (hnames : ∀ t, (s2.view 0).hasTopic t → ShortStr t) (hl : (sent (actsOf k tr)).length < 2 ^ 31)
      (e : Client.response Client.syncGroup (sent (actsOf k tr)) = some ((c, 0, 1, ts, none), [])) (hz : ∀ ps, (t, ps) ∈ ts → p ∉ ps)

theorem forall₂_mem_right {α β : Type} {R : α → β → Prop} {l : List α} {l' : List β} (h : List.Forall₂ R l l') {b : β} (hb : b ∈ l') : ∃ a ∈ l, R a b := by
  obtain ⟨i, hi⟩ := List.getElem?_of_mem hb
  obtain ⟨a, h1, h2⟩ := forall₂_get h hi
  exact ⟨a, List.mem_of_getElem? h1, h2⟩

theorem Shown.exists {s1 s2 : Sys} {t : Bytes} {p : I32} (h : Shown s1 s2 t p) : (s2.view 0).hasPartition t p := by
  cases h with
  | commit h e ht hn hp hi hz =>
    obtain ⟨x, e1, e2⟩ := C59_commit h
    rw [e] at e1; cases e1
    obtain ⟨qt, _, f1, f2⟩ := forall₂_mem_right e2 ht
    obtain ⟨qp, _, g1, g2⟩ := forall₂_mem_right f2 hp
    rw [← hn, ← hi, f1, g1]
    rcases g2 with g2 | g2
    · rw [hz] at g2; cases g2.1
    · exact g2.2.1
  | listOffsets h e ht hn hp hi hz =>
    obtain ⟨x, e1, e2⟩ := C59_list_offsets h
    rw [e] at e1; cases e1
    obtain ⟨qt, _, f1, f2⟩ := forall₂_mem_right e2 ht
    obtain ⟨qp, _, g1, g2⟩ := forall₂_mem_right f2 hp
    rw [← hn, ← hi, f1, g1]
    rcases g2 with g2 | g2
    · rw [hz] at g2; cases g2.1
    · exact g2.2.1
  | offsetFetch h e ht hn hp hi =>
    obtain ⟨x, e1, _, _, e2⟩ := C59_offset_fetch h
    rw [e] at e1; cases e1
    rw [← hn, ← hi]
    exact (e2 _ ht _ hp).2.1
  | syncGroup h hnames hl e ht hp =>
    obtain ⟨x, e1, e2⟩ := C59_sync_group h hnames hl
    rw [e] at e1; cases e1
    exact e2.partsExist _ ht _ hp
  | fetch h single hs hl e ht hp hi hm =>
    obtain ⟨x, e1, e2⟩ := C78_fetch_partial h single hs hl
    rw [e] at e1; cases e1
    obtain ⟨qt, _, f1, f2⟩ := forall₂_mem_right e2 ht
    obtain ⟨qp, _, g1, _, g2⟩ := forall₂_mem_right f2 hp
    refine Classical.byContradiction fun hn => hm (g2 ?_).1
    rwa [← f1, ← g1, hi]

theorem Denied.absent {s1 s2 : Sys} {t : Bytes} {p : I32} (h : Denied s1 s2 t p) : ¬ (s1.view 0).hasPartition t p := by
  intro hex
  cases h with
  | commit h e ht hn hp hi hz =>
    obtain ⟨x, e1, e2⟩ := C59_commit h
    rw [e] at e1; cases e1
    obtain ⟨qt, _, f1, f2⟩ := forall₂_mem_right e2 ht
    obtain ⟨qp, _, g1, g2⟩ := forall₂_mem_right f2 hp
    rw [← hn, ← hi, f1, g1] at hex
    rcases g2 with g2 | g2
    · exact g2.2 hex
    · exact hz g2.1
  | listOffsets h e ht hn hp hi hz =>
    obtain ⟨x, e1, e2⟩ := C59_list_offsets h
    rw [e] at e1; cases e1
    obtain ⟨qt, _, f1, f2⟩ := forall₂_mem_right e2 ht
    obtain ⟨qp, _, g1, g2⟩ := forall₂_mem_right f2 hp
    rw [← hn, ← hi, f1, g1] at hex
    rcases g2 with g2 | g2
    · exact g2.2 hex
    · exact hz g2.1
  | offsetFetch h e hq hn hp hz =>
    obtain ⟨x, e1, _, e2, _⟩ := C59_offset_fetch h
    rw [e] at e1; cases e1
    obtain ⟨rt, a1, a2, rp, a3, a4⟩ := e2 _ hq _ hp (by rw [hn]; exact hex)
    exact hz rt a1 (by rw [a2, hn]) rp a3 a4
  | syncGroup h hnames hl e hz =>
    obtain ⟨x, e1, e2⟩ := C59_sync_group h hnames hl
    rw [e] at e1; cases e1
    obtain ⟨y, y1, y2⟩ := List.mem_map.1 (e2.topics t hex.hasTopic)
    have := e2.parts y y1 p (by rw [y2]; exact hex)
    exact hz y.2 (by rw [← y2]; exact y1) this

/-- **C127**: whoever has been shown that a partition exists, by whatever request, neither they nor anyone else is shown later, by whatever request, that it does not. -/
theorem C127_known {s1 s2 s3 s4 : Sys} {a : List SEv} {t : Bytes} {p : I32} (h : Shown s1 s2 t p) (hr : Sys.Run s2 a s3) : ¬ Denied s3 s4 t p :=
  fun hd => hd.absent ((C46_kept hr).2.2.2 t p h.exists)

/-- A call that creates partition `p` of topic `t`: SimplePost, ExtendedPost or CreatePartitionTopics that names it. -/
def Creates (c : Call) (t : Bytes) (p : I32) : Prop :=
  (∃ call : PostCall, c = call.call ∧ call.topic = t ∧ BitVec.ofInt 32 call.partition = p) ∨ ∃ m ts, c = .createPartitionTopics m ts ∧ t ∈ ts ∧ BitVec.ofInt 32 m = p

theorem post_creates {call : PostCall} {l : List REv} {t : Bytes} {p : I32} {f : (Act.createPartition t p).Resp → Prog Unit} (h : Own call.prog l (.act (.createPartition t p) f)) :
    call.topic = t ∧ BitVec.ofInt 32 call.partition = p := by
  unfold PostCall.prog at h
  split at h
  all_goals
    cases h with
    | act _ _ _ h =>
      cases h with
      | refl => exact ⟨rfl, rfl⟩
      | act _ _ _ h =>
        cases h with
        | act _ _ _ h =>
          cases h with
          | act _ _ _ h => cases h

theorem create_creates {m : Int} {ts : List Bytes} {l : List REv} {t : Bytes} {p : I32} {f : (Act.createPartition t p).Resp → Prog Unit}
    (h : Own (createPartitionTopics m ts) l (.act (.createPartition t p) f)) : t ∈ ts ∧ BitVec.ofInt 32 m = p := by
  induction ts generalizing l with
  | nil => cases h
  | cons t' ts ih =>
    cases h with
    | act _ _ r h =>
      cases h with
      | refl => exact ⟨List.mem_cons_self .., rfl⟩
      | act _ _ r h => exact ⟨List.mem_cons_of_mem _ (ih h).1, (ih h).2⟩

theorem reset_creates {t' g : Bytes} {m : Int} {o : I64} {l : List REv} {t : Bytes} {p : I32} {f : (Act.createPartition t p).Resp → Prog Unit} :
    ¬ Own (setConsumerGroupOffset t' m g o) l (.act (.createPartition t p) f) := by
  intro h
  cases h with
  | act _ _ r h =>
    cases r with
    | false => cases h
    | true =>
      cases h with
      | act _ _ r h =>
        cases r with
        | false => cases h
        | true =>
          cases h with
          | act _ _ _ h => cases h

theorem origin_of {sv : Server} {clock : Int} {tr : List NEv} {n : Net} (h : Net.Run (Net.new sv clock) tr n) {t : Bytes} {p : I32} (hp : (n.sys.view 0).hasPartition t p) :
    ∃ k i c n0, Called sv clock tr k i c n0 ∧ Creates c t p := by
  refine net_snoc (P := fun tr n => (n.sys.view 0).hasPartition t p → ∃ k i c n0, Called sv clock tr k i c n0 ∧ Creates c t p) ?_ ?_ h hp
  · intro h
    cases h
  · intro tr n e n' hr ih hs hp
    have old : (n.sys.view 0).hasPartition t p → ∃ k i c n0, Called sv clock (tr ++ [e]) k i c n0 ∧ Creates c t p := by
      intro h
      obtain ⟨k, i, c, n0, h1, h2⟩ := ih h
      exact ⟨k, i, c, n0, h1.more _, h2⟩
    cases hs with
    | send => exact old hp
    | receive => exact old hp
    | @mock e s L hs hl =>
      rcases step_exists hs hp with h1 | ⟨k, r, rfl⟩ | ⟨i, r, rfl⟩
      · exact old h1
      · obtain ⟨q, hq⟩ := acts_own (hr.append (.cons (.mock hs hl) (.nil _))).sys k
        have hacts : actsOf k (mocks (tr ++ [.mock (.conn k (.createPartition t p) r)])) = actsOf k (mocks tr) ++ [⟨.createPartition t p, r⟩] := by
          rw [mocks_append, actsOf_append, show mocks [.mock (.conn k (.createPartition t p) r)] = [.conn k (.createPartition t p) r] from rfl, actsOf_self]
        rw [hacts] at hq
        rcases (hq.only (handle_connAct sv)).2 ⟨.createPartition t p, r⟩ (by simp) with h1 | ⟨_, _, _, _, h1⟩
        · rcases h1 with h1 | ⟨_, _, _, h1⟩
          · cases h1
          · cases h1
        · cases h1
      · cases hs with
        | @call _ _ f _ w hp' ha =>
          obtain ⟨u, v, n0, n1, c, q, es, g1, g2, g3, g4, g5, g6, g7⟩ := net_called hr hp'
          have ho := g6.own
          refine ⟨u.length, i, c, n0, .mk (by rw [g1, List.append_assoc]; rfl) rfl g2 g3, ?_⟩
          have post : ∀ call : PostCall, c = call.call → Creates c t p := by
            intro call hc
            rw [hc, call.entry] at g5
            cases g5
            exact .inl ⟨call, hc, post_creates ho⟩
          cases c with
          | simplePost t m k x => exact post ⟨t, m, k, x, none⟩ rfl
          | extendedPost t m k x hs ts => exact post ⟨t, m, k, x, some (hs, ts)⟩ rfl
          | createPartitionTopics m ts => cases g5; exact .inr ⟨m, ts, rfl, create_creates ho⟩
          | setConsumerGroupOffset t m g o => cases g5; exact absurd ho reset_creates
          | _ => cases g5

/-- **C127**, the origin of partitions: when a request has been answered in a way that shows that a partition exists, the test has called SimplePost, ExtendedPost or CreatePartitionTopics for this
partition before. No client creates one, whatever it sends. -/
theorem C127_origin {sv : Server} {clock : Int} {tr : List NEv} {n : Net} {s1 : Sys} (h : Net.Run (Net.new sv clock) tr n) {t : Bytes} {p : I32} (hs : Shown s1 n.sys t p) :
    ∃ k i c n0, Called sv clock tr k i c n0 ∧ Creates c t p := origin_of h hs.exists

/-- **C127**, the test: when SimplePost, ExtendedPost or CreatePartitionTopics has returned, no request taken up later shows that the partition does not exist. -/
theorem C127_returned {sa sb s3 s4 : Sys} {i : Nat} {c : Call} {tc a : List SEv} (hc : CallRun sa i c tc sb) (hr : Sys.Run sb a s3) {t : Bytes} {p : I32} (ht : Creates c t p) :
    ¬ Denied s3 s4 t p := by
  refine fun hd => hd.absent ((C46_kept hr).2.2.2 t _ ?_)
  rcases ht with ⟨call, rfl, rfl, rfl⟩ | ⟨m, ts, rfl, h1, rfl⟩
  · obtain ⟨pos, r, _, _, h1, _⟩ := C60_posts_partial hc
    refine Classical.byContradiction fun hn => ?_
    rw [log_missing hn] at h1
    cases h1
  · obtain ⟨sx, es, e1, e2, e3, _, e5⟩ := hc.exec rfl
    obtain ⟨_, _, _, _, h2, _⟩ := C19_create_keeps_everything e3
    exact h2 rfl t h1

/-- A ListOffsets request for partition 5, which does not exist. -/
def askFive : Request := .listOffsets ⟨-1, [⟨[116], [⟨5, -1⟩]⟩]⟩

set_option maxRecDepth 100000 in
set_option synthInstance.maxSize 1000 in
/-- A partition that is shown to exist, and one that is shown not to. -/
example : (∃ s1 s2, Shown s1 s2 [116] 0) ∧ ∃ s1 s2, Denied s1 s2 [116] 5 := by
  obtain ⟨t0, h⟩ := oneRecord_run
  have e1 := exchange_of_play h 0 7 (askWhen 5) 7 (by unfold askWhen Request.WellFormed ShortList ShortStr; decide) (by decide +kernel)
  have e2 := exchange_of_play h 0 5 askFive 7 (by unfold askFive Request.WellFormed ShortList ShortStr; decide) (by decide +kernel)
  exact ⟨⟨_, _, .listOffsets (x := ⟨[⟨[116], [⟨0, 0, 0, 1⟩]⟩]⟩) (rt := ⟨[116], [⟨0, 0, 0, 1⟩]⟩) (rp := ⟨0, 0, 0, 1⟩) e1 (by decide +kernel) (by simp) rfl (by simp) rfl rfl⟩,
    ⟨_, _, .listOffsets (x := ⟨[⟨[116], [⟨5, 3, 0, 0⟩]⟩]⟩) (rt := ⟨[116], [⟨5, 3, 0, 0⟩]⟩) (rp := ⟨5, 3, 0, 0⟩) e2 (by decide +kernel) (by simp) rfl (by simp) rfl (by decide)⟩⟩

end KM.Props
