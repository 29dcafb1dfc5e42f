import Verif.Serve
import Verif.Props.Crc
import Verif.Props.Group
import Verif.Props.Posts
import Verif.Props.Accepted
/-
C59: what a client reads in response to Fetch, OffsetCommit, OffsetFetch, ListOffsets and SyncGroup requests, on one connection of a running mock.
-/
namespace KM.Props
open KM Spec

/-- What a sequence of actions does to the store. -/
def effectsBy (l : List REv) : List Eff := l.filterMap fun e => e.act.effect

theorem effectsBy_append (a b : List REv) : effectsBy (a ++ b) = effectsBy a ++ effectsBy b := by simp [effectsBy]

/-- A request served to its end, in terms of the function on field values. -/
theorem RequestRun.done {sv : Server} {req : Request} {c : I32} {w w' : World} {tr : List Ev} (h : RequestRun sv req c w tr w' (.ret .done)) {α : Type}
    {p : Prog α} {f : α → Bytes} (ha : answer sv req = p.map fun x => some (f x)) :
    ∃ t1 t2 w1 x, tr = t1 ++ t2 ∧ Exec w p t1 w1 (.ret x) ∧ Steps w1 t2 w' ∧ sent (own tr) = responseBytes c (f x) ∧ effectsBy (own t2) = [] := by
  obtain ⟨client, n, k1, k2, k3⟩ := h.run
  rcases request_run h.wellFormed k1 k2 h.body k3 h.sentAll h.over with ⟨h1, _⟩ | ⟨t1, t2, w1, rfl, hs, ⟨_, h1, _⟩ | ⟨payload, h1, _, h3, h4⟩⟩
  · cases h1
  · cases h1
  · rw [ha] at h1
    rcases exec_bind_ret h1 with ⟨ta, tb, wm, x, h5, h6, rfl⟩
    obtain ⟨e, h7⟩ := exec_ret_inv h6
    cases e
    refine ⟨ta, tb ++ t2, wm, x, by simp, h5, h7.1.append hs, h3, ?_⟩
    rw [own_append, own_envSteps h7, h4]; rfl

theorem responseBytes_length (c : I32) (b : Bytes) : (responseBytes c b).length = 8 + b.length := by
  simp [responseBytes, Spec.int32]; omega

/-! ### Fetch -/

theorem log_missing {w : World} {t : Bytes} {p : I32} (h : ¬ w.hasPartition t p) : w.log t p = [] := by
  unfold World.hasPartition at h
  unfold World.log
  cases e : w.ds.part? t p with
  | none => rfl
  | some kp => rw [e] at h; exact absurd rfl h

/-- The messages and the high watermark with which a partition is answered, when its log is `before` at the start and `after` at the end of the request:
everything from the requested offset up to some point, which includes all of `before`. -/
def Answers (before after : List Record) (par : FetchPartition) (msgs : List MessageV1) (highWatermark : I64) : Prop :=
  ∃ n, before.length ≤ n ∧ n ≤ after.length ∧ Labelled par.fetchOffset.toInt ((after.take n).drop par.fetchOffset.toInt.toNat) msgs ∧
    highWatermark = BitVec.ofInt 64 (par.fetchOffset.toInt + msgs.length) ∧
    ((((after.take n).drop par.fetchOffset.toInt.toNat).map wireSize).sum : Nat) ≤ max 0 par.maxBytes.toInt

theorem _root_.KM.Fetched.answers {w w' : World} {tr : List Ev} {src : Bytes × FetchPartition} {fd : FetchData} (h : Fetched w tr w' src fd)
    (hs : ∀ r ∈ w'.log src.1 src.2.partition, wireSize r < 2 ^ 31) :
    Answers (w.log src.1 src.2.partition) (w'.log src.1 src.2.partition) src.2 fd.ms.msgs (BitVec.ofInt 64 fd.offset) ∧ Client.GoodSet fd.ms := by
  rcases h with ⟨⟨t0, t1, wm, rfl, s0, s1, hn⟩, h2, h3, h4⟩ | ⟨h0, t0, t1, wm, rfl, s0, s1, _, h2, h3, h4, h5⟩
  · have hl := log_missing hn
    have h0 := s0.log src.1 src.2.partition
    rw [hl] at h0
    have h0 : w.log src.1 src.2.partition = [] := by
      cases e : w.log src.1 src.2.partition with
      | nil => rfl
      | cons a l => rw [e] at h0; cases h0
    refine ⟨⟨0, by simp [h0], by simp, ?_, ?_, ?_⟩, ?_⟩
    · rw [h3]; exact ⟨by simp, by simp⟩
    · rw [h2, h3]; simp
    · simp
    · refine ⟨by rw [h3, h4]; rfl, by rw [h4]; decide, by rw [h3]; simp⟩
  · have hb := mem_drop_bounds s1 hs (n := src.2.fetchOffset.toInt.toNat)
    rw [recSize_sum hb] at h4
    have hmax : src.2.maxBytes.toInt < 2 ^ 31 := by
      have := BitVec.toInt_lt (x := src.2.maxBytes); simpa using this
    have ht : (w'.log src.1 src.2.partition).take (wm.log src.1 src.2.partition).length = wm.log src.1 src.2.partition := by
      rw [s1.log, List.take_append_of_le_length (Nat.le_refl _), List.take_length]
    have hsum : ((((wm.log src.1 src.2.partition).drop src.2.fetchOffset.toInt.toNat).map wireSize).sum : Int) ≤ max 0 src.2.maxBytes.toInt := by
      rcases h5 with h5 | h5
      · rw [h5]; simp
      · rw [h4] at h5; omega
    refine ⟨⟨(wm.log src.1 src.2.partition).length, ?_, ?_, ?_, ?_, ?_⟩, ?_, ?_, ?_⟩
    · rw [s0.log]; simp
    · rw [s1.log]; simp
    · rw [ht, h3]; exact labelled_mapIdx _ _
    · rw [h2, h3, List.length_mapIdx]
    · rw [ht]; exact hsum
    · have e : fd.ms.msgs.flatMap message1 = fd.ms.msgs.flatMap encodeMessageV1 := by
        congr 1; funext m; exact message1_eq m
      rw [e, h3, flatMap_length, h4]
    · rw [h4]; omega
    · intro m hm
      rw [h3, List.mem_mapIdx] at hm
      obtain ⟨i, hi, rfl⟩ := hm
      have := hb _ (List.getElem_mem hi)
      unfold wireSize at this
      refine ⟨fun x hx => ?_, fun x hx => ?_⟩
      · have hx : x ∈ (((wm.log src.1 src.2.partition).drop src.2.fetchOffset.toInt.toNat)[i]).key := hx
        rw [hx] at this
        unfold ShortList
        simp at this; omega
      · have hx : x ∈ (((wm.log src.1 src.2.partition).drop src.2.fetchOffset.toInt.toNat)[i]).value := hx
        rw [hx] at this
        unfold ShortList
        simp at this; omega

/-- What the responses to a Fetch request with several partitions per topic contain, exactly: all partitions listed under topic number `n` carry the
messages and the high watermark of the `n`-th partition of the whole request (C35). -/
theorem fetch_request {sv : Server} {q : FetchRequest} {c : I32} {w w' : World} {tr : List Ev} (h : RequestRun sv (.fetch q) c w tr w' (.ret .done))
    (hs : ∀ t p, ∀ r ∈ w'.log t p, wireSize r < 2 ^ 31) (hl : (sent (own tr)).length < 2 ^ 31) :
    ∃ x, ClientReads Client.fetch tr c (0, x) ∧
      List.Forall₂ (fun (qt : FetchTopic × Nat) (rt : Bytes × List Client.FetchedPartition) => rt.1 = qt.1.topic ∧ ∃ src, q.named[qt.2]? = some src ∧
        List.Forall₂ (fun (par : FetchPartition) (fp : Client.FetchedPartition) => fp.partition = par.partition ∧ fp.errorCode = 0 ∧
          Answers (w.log src.1 src.2.partition) (w'.log src.1 src.2.partition) src.2 fp.messages fp.highWatermark) qt.1.partitions rt.2) q.topics.zipIdx x := by
  obtain ⟨hw1, hw2⟩ := h.wellFormed
  obtain ⟨t1, t2, w1, resp, rfl, h1, h2, h3, _⟩ := h.done (p := fetch q) (f := fetchResponse) rfl
  obtain ⟨fds, h4, h5, h6⟩ := fetch_ret h1
  have hs1 : ∀ t p, ∀ r ∈ w1.log t p, wireSize r < 2 ^ 31 := fun t p r hr => hs t p r (by rw [h2.log]; exact List.mem_append_left _ hr)
  have h7 := fetchRespond_eq h5
  -- what is known of each topic of the response
  have h8 : List.Forall₂ (fun (qt : FetchTopic × Nat) (rt : FetchRespTopic) => qt.1 ∈ q.topics ∧ rt.topic = qt.1.topic ∧ ∃ src, q.named[qt.2]? = some src ∧
      List.Forall₂ (fun (par : FetchPartition) (rp : FetchRespPartition) => rp.partitionIndex = par.partition ∧ rp.errorCode = 0 ∧
        Answers (w.log src.1 src.2.partition) (w'.log src.1 src.2.partition) src.2 rp.records.msgs rp.highWatermark ∧ Client.GoodSet rp.records)
        qt.1.partitions rt.partitions) q.topics.zipIdx resp.responses := by
    have := (List.forall₂_and_left _ _).2 ⟨fun x hx => hx, h7⟩
    refine List.Forall₂.imp ?_ this
    rintro ⟨qt, n⟩ rt ⟨hm, fd, hfd, e1, e2⟩
    obtain ⟨src, hsrc, hf⟩ := forall₂_get h4 hfd
    refine ⟨List.mem_of_getElem? (mem_zipIdx_get hm), e1, src, hsrc, ?_⟩
    rw [e2, List.forall₂_map_right_iff]
    refine List.forall₂_same.2 fun par _ => ⟨rfl, rfl, ?_⟩
    obtain ⟨⟨n, a1, a2, a3, a4, a5⟩, a6⟩ := Fetched.answers hf (hs1 _ _)
    have ht : (w'.log src.1 src.2.partition).take n = (w1.log src.1 src.2.partition).take n := by
      rw [h2.log, List.take_append_of_le_length a2]
    refine ⟨⟨n, a1, ?_, ?_, a4, ?_⟩, a6⟩
    · rw [h2.log, List.length_append]; omega
    · rw [ht]; exact a3
    · rw [ht]; exact a5
  have hlen := h8.length_eq
  rw [List.length_zipIdx] at hlen
  refine ⟨resp.responses.map fun t => (t.topic, t.partitions.map Client.FetchedPartition.of), ?_, ?_⟩
  · have := Client.parses_fetch (x := resp) (by unfold ShortList at *; omega) (by
      intro rt hrt
      obtain ⟨n, hn⟩ := List.getElem?_of_mem hrt
      obtain ⟨qt, _, g1, g2, src, g3, g4⟩ := forall₂_get h8 hn
      obtain ⟨k1, k2⟩ := hw2 _ g1
      refine ⟨by rw [g2]; exact k1, by unfold ShortList at *; rw [← g4.length_eq]; exact k2, ?_⟩
      intro rp hrp
      obtain ⟨m, hm⟩ := List.getElem?_of_mem hrp
      obtain ⟨_, _, _, _, _, g5⟩ := forall₂_get g4 hm
      exact g5)
    rw [h6] at this
    refine clientReads h3 this ?_
    rw [h3, responseBytes_length] at hl
    omega
  · rw [List.forall₂_map_right_iff]
    refine List.Forall₂.imp ?_ h8
    rintro qt rt ⟨_, e1, src, e2, e3⟩
    refine ⟨e1, src, e2, ?_⟩
    rw [List.forall₂_map_right_iff]
    exact List.Forall₂.imp (fun par rp ⟨a, b, d, _⟩ => ⟨a, b, d⟩) e3

/-! ### Requests among all goroutines of the mock -/

/-- In a run of the mock, connection `k` takes up request `req` with correlation id `c` in state `s1` and has answered it in state `s2`, all other
goroutines going on in between; `tr` is what happens from `s1` to `s2`, `t1` what happened before. The message is one that is accepted as a message of the
request: the proper one, or one that differs from it in the lengths that stand for absent strings. Its header and its body each fit the read buffer, no write to the
connection failed, and something was written. (By `C105_exchange` every message that the mock answers is one of these.) -/
structure Exchange (sv : Server) (clock : Int) (k : Nat) (req : Request) (c : I32) (t1 : List SEv) (s1 : Sys) (tr : List SEv) (s2 : Sys) : Prop where
  wellFormed : req.WellFormed
  body : req.body.length ≤ 4096
  serves : ∃ client m, (Accepted req c client m ∧ (header req.api.1 req.api.2 c client).length ≤ 4096) ∧ Serves sv clock k m t1 s1 tr s2
  sentAll : AllSent (actsOf k tr)
  answered : sent (actsOf k tr) ≠ []

theorem Exchange.run {sv : Server} {clock : Int} {k : Nat} {req : Request} {c : I32} {t1 tr : List SEv} {s1 s2 : Sys}
    (h : Exchange sv clock k req c t1 s1 tr s2) : ∃ ctx es, RequestRun sv req c (s1.view ctx) es (s2.view ctx) (.ret .done) ∧
      own es = actsOf k tr ∧ effects es = effectsOf tr := by
  obtain ⟨client, m, ⟨hacc, hh⟩, hs⟩ := h.serves
  have hc := accepted_client hacc
  obtain ⟨ctx, es, res, h1, h2, h3⟩ := hs.dispatches
  have he := dispatcher_accepted sv hacc ⟨hh, h.body⟩ [] m.length
  rw [List.append_nil, List.append_nil] at he
  rw [he, accepted_length hacc] at h1
  have ha := h.sentAll
  rw [← h2] at ha
  cases res with
  | err => exact absurd (by rw [← h2]; exact C17_no_response h1 (.inl rfl) ha) h.answered
  | done => exact ⟨ctx, es, ⟨h.wellFormed, ⟨client, _, hc, hh, h1⟩, h.body, ha, trivial⟩, h2, h3⟩

/-- **C59**, Fetch: with one partition per topic, and as long as no record and the response itself are 2 GiB or more, the client reads a response with the
requested topics and partitions, without error; each partition carries the records from the requested offset up to a point that is no earlier than the end
of the log when the request was taken up, labelled with their offsets, and the offset after the last of them as high watermark.
Missing for the full statement: requests that name several partitions of one topic, for which it is false, `C59_false`. -/
theorem C59_fetch_partial {sv : Server} {clock : Int} {k : Nat} {q : FetchRequest} {c : I32} {t1 tr : List SEv} {s1 s2 : Sys}
    (h : Exchange sv clock k (.fetch q) c t1 s1 tr s2) (single : ∀ t ∈ q.topics, ∃ p, t.partitions = [p])
    (hs : ∀ t p, ∀ r ∈ (s2.view 0).log t p, wireSize r < 2 ^ 31) (hl : (sent (actsOf k tr)).length < 2 ^ 31) :
    ∃ x, Client.response Client.fetch (sent (actsOf k tr)) = some ((c, 0, x), []) ∧
      List.Forall₂ (fun (qt : FetchTopic) (rt : Bytes × List Client.FetchedPartition) => rt.1 = qt.topic ∧
        List.Forall₂ (fun (par : FetchPartition) (fp : Client.FetchedPartition) => fp.partition = par.partition ∧ fp.errorCode = 0 ∧
          Answers ((s1.view 0).log qt.topic par.partition) ((s2.view 0).log qt.topic par.partition) par fp.messages fp.highWatermark)
          qt.partitions rt.2) q.topics x := by
  obtain ⟨ctx, es, h1, h2, h3⟩ := h.run
  obtain ⟨x, h4, h5⟩ := fetch_request h1 hs (by rw [h2]; exact hl)
  refine ⟨x, by rw [← h2]; exact h4, ?_⟩
  have hz : q.topics = q.topics.zipIdx.map Prod.fst := by simp
  rw [hz, List.forall₂_map_left_iff]
  have := (List.forall₂_and_left _ _).2 ⟨fun x hx => hx, h5⟩
  refine List.Forall₂.imp ?_ this
  rintro qt rt ⟨hm, e1, src, e2, e3⟩
  obtain ⟨p, e4, e5⟩ := named_single single (mem_zipIdx_get hm)
  have e6 : q.named[qt.2]? = some (qt.1.topic, p) := e5
  rw [e6] at e2; cases e2
  refine ⟨e1, ?_⟩
  rw [e4] at e3 ⊢
  generalize rt.2 = ps at e3 ⊢
  cases e3 with
  | cons e7 e8 => cases e8; exact .cons e7 .nil

/-! ### Sizes of responses -/

theorem array_length {α : Type} (f : α → Bytes) (xs : List α) : (array f xs).length = 4 + (xs.map fun x => (f x).length).sum := by
  simp [array, Spec.int32, List.length_flatMap]; omega

theorem array_length_le {α β : Type} {f : α → Bytes} {g : β → Bytes} {xs : List α} {ys : List β} {n : Nat} (hn : 1 ≤ n)
    (h : List.Forall₂ (fun x y => (g y).length ≤ n * (f x).length) xs ys) : (array g ys).length ≤ n * (array f xs).length := by
  rw [array_length, array_length]
  have : (ys.map fun y => (g y).length).sum ≤ n * (xs.map fun x => (f x).length).sum := by
    induction h with
    | nil => simp
    | cons h _ ih => simp only [List.map_cons, List.sum_cons, Nat.mul_add]; omega
  rw [Nat.mul_add]; omega

theorem str_length (s : Bytes) : (str s).length = 2 + s.length := by simp [str, Spec.int16]; omega

/-! ### OffsetCommit -/

theorem commit_request {sv : Server} {q : CommitRequest} {c : I32} {w w' : World} {tr : List Ev}
    (h : RequestRun sv (.offsetCommit q) c w tr w' (.ret .done)) : ∃ x t1 t2 w1, tr = t1 ++ t2 ∧ Exec w (offsetCommit q) t1 w1 (.ret x) ∧ Steps w1 t2 w' ∧
      ClientReads Client.commit tr c x ∧ effectsBy (own t2) = [] := by
  obtain ⟨_, _, hw1, hw2⟩ := h.wellFormed
  obtain ⟨t1, t2, w1, x, rfl, h1, h2, h3, h4⟩ := h.done (p := offsetCommit q) (f := commitResponse) rfl
  refine ⟨x, t1, t2, w1, rfl, h1, h2, clientReads h3 (Client.parses_commit ?_ ?_) ?_, h4⟩
  · have := (C25_commit_answers h1).length_eq
    unfold ShortList at *; omega
  · intro rt hrt
    obtain ⟨n, hn⟩ := List.getElem?_of_mem hrt
    obtain ⟨qt, g1, g2, g3⟩ := forall₂_get (C25_commit_answers h1) hn
    obtain ⟨k1, k2, _⟩ := hw2 _ (List.mem_of_getElem? g1)
    refine ⟨by rw [g2]; exact k1, ?_⟩
    unfold ShortList at *; rw [← g3.length_eq]; exact k2
  · have hb := h.body
    have : (commitResponse x).length ≤ 1 * (array (fun t : CommitTopic => str t.name ++
        array (fun p : CommitPartition => Spec.int32 p.partitionIndex ++ Spec.int64 p.committedOffset ++ nullableStr p.metadata) t.partitions) q.topics).length := by
      refine array_length_le (by omega) (List.Forall₂.imp ?_ (C25_commit_answers h1))
      rintro qt rt ⟨g1, g2⟩
      have := array_length_le (n := 1) (g := fun p : CommitRespPartition => Spec.int32 p.partitionIndex ++ Spec.int16 p.errorCode)
        (f := fun p : CommitPartition => Spec.int32 p.partitionIndex ++ Spec.int64 p.committedOffset ++ nullableStr p.metadata) (by omega)
        (List.Forall₂.imp (fun qp rp _ => by simp [Spec.int32, Spec.int16, Spec.int64]) g2)
      rw [g1, List.length_append, List.length_append]
      omega
    have hb : (str q.groupId ++ Spec.int32 q.generationId ++ str q.memberId ++ Spec.int64 q.retentionTimeMs ++ array (fun t : CommitTopic => str t.name ++
        array (fun p : CommitPartition => Spec.int32 p.partitionIndex ++ Spec.int64 p.committedOffset ++ nullableStr p.metadata) t.partitions) q.topics).length ≤ 4096 := hb
    rw [List.length_append] at hb
    omega

/-- **C59**, OffsetCommit: the client reads a response with the requested topics and partitions. Code 3 means that the partition did not exist when the
request was taken up. Otherwise the code is 0, the partition exists when the request has been answered, and unless the group's offset is reset meanwhile it
is then at least the offset sent. -/
theorem C59_commit {sv : Server} {clock : Int} {k : Nat} {q : CommitRequest} {c : I32} {t1 tr : List SEv} {s1 s2 : Sys}
    (h : Exchange sv clock k (.offsetCommit q) c t1 s1 tr s2) :
    ∃ x, Client.response Client.commit (sent (actsOf k tr)) = some ((c, x), []) ∧
      List.Forall₂ (fun (qt : CommitTopic) (rt : CommitRespTopic) => rt.name = qt.name ∧
        List.Forall₂ (fun (qp : CommitPartition) (rp : CommitRespPartition) => rp.partitionIndex = qp.partitionIndex ∧
          (rp.errorCode = 3 ∧ ¬ (s1.view 0).hasPartition qt.name qp.partitionIndex ∨
           rp.errorCode = 0 ∧ (s2.view 0).hasPartition qt.name qp.partitionIndex ∧
             ((∀ o, .reset qt.name qp.partitionIndex q.groupId o ∉ effectsOf tr) →
               qp.committedOffset.toInt ≤ ((s2.view 0).committed qt.name qp.partitionIndex q.groupId).toInt)))
          qt.partitions rt.partitions) q.topics x.topics := by
  obtain ⟨ctx, es, h1, h2, h3⟩ := h.run
  obtain ⟨x, ta, tb, w1, rfl, h4, h5, h6, _⟩ := commit_request h1
  refine ⟨x, by rw [← h2]; exact h6, List.Forall₂.imp ?_ (C25_commit_answers h4)⟩
  rintro qt rt ⟨e1, e2⟩
  refine ⟨e1, List.Forall₂.imp ?_ e2⟩
  rintro qp rp ⟨g1, g2, ⟨u0, u1, wm, rfl, g3, g4, g5⟩, g6⟩
  refine ⟨g1, ?_⟩
  rcases g2 with g2 | g2
  · refine .inr ⟨g2, (g4.append h5).hasPartition (g5.1 g2), fun hn => ?_⟩
    obtain ⟨v0, v1, wn, ev, k3, k4, k5⟩ := g6 g2
    refine Int.le_trans k5 ?_
    have := (k4.append h5).committed qt.name qp.partitionIndex q.groupId
    rw [show (s2.view 0).committed qt.name qp.partitionIndex q.groupId = (s2.view ctx).committed qt.name qp.partitionIndex q.groupId from rfl, this]
    refine committedFrom_le (fun o ho => hn o ?_) _
    rw [← h3, ev, List.append_assoc, effects_append]
    exact List.mem_append_right _ ho
  · refine .inl ⟨g2, fun hp => ?_⟩
    have : rp.errorCode = 0 := g5.2 (g3.hasPartition hp)
    rw [g2] at this; cases this

/-! ### ListOffsets -/

theorem listOffsets_request {sv : Server} {q : ListOffsetsRequest} {c : I32} {w w' : World} {tr : List Ev}
    (h : RequestRun sv (.listOffsets q) c w tr w' (.ret .done)) : ∃ x t1 t2 w1, tr = t1 ++ t2 ∧ Exec w (listOffsets q) t1 w1 (.ret x) ∧ Steps w1 t2 w' ∧
      ClientReads Client.listOffsets tr c x := by
  obtain ⟨hw1, hw2⟩ := h.wellFormed
  obtain ⟨t1, t2, w1, x, rfl, h1, h2, h3, _⟩ := h.done (p := listOffsets q) (f := listOffsetsResponse) rfl
  refine ⟨x, t1, t2, w1, rfl, h1, h2, clientReads h3 (Client.parses_listOffsets ?_ ?_) ?_⟩
  · have := (listOffsets_answers h1).length_eq
    unfold ShortList at *; omega
  · intro rt hrt
    obtain ⟨n, hn⟩ := List.getElem?_of_mem hrt
    obtain ⟨qt, g1, g2, g3⟩ := forall₂_get (listOffsets_answers h1) hn
    obtain ⟨k1, k2⟩ := hw2 _ (List.mem_of_getElem? g1)
    refine ⟨by rw [g2]; exact k1, ?_⟩
    unfold ShortList at *; rw [← g3.length_eq]; exact k2
  · have hb := h.body
    have : (listOffsetsResponse x).length ≤ 2 * (array (fun t : ListOffsetsTopic => str t.name ++
        array (fun p : ListOffsetsPartition => Spec.int32 p.partitionIndex ++ Spec.int64 p.timestamp) t.partitions) q.topics).length := by
      refine array_length_le (by omega) (List.Forall₂.imp ?_ (listOffsets_answers h1))
      rintro qt rt ⟨g1, g2⟩
      have := array_length_le (n := 2)
        (g := fun p : ListOffsetsRespPartition => Spec.int32 p.partitionIndex ++ Spec.int16 p.errorCode ++ Spec.int64 p.timestamp ++ Spec.int64 p.offset)
        (f := fun p : ListOffsetsPartition => Spec.int32 p.partitionIndex ++ Spec.int64 p.timestamp) (by omega)
        (List.Forall₂.imp (fun qp rp _ => by simp [Spec.int32, Spec.int16, Spec.int64]) g2)
      rw [g1, List.length_append, List.length_append]
      omega
    have hb : (Spec.int32 q.replicaId ++ array (fun t : ListOffsetsTopic => str t.name ++
        array (fun p : ListOffsetsPartition => Spec.int32 p.partitionIndex ++ Spec.int64 p.timestamp) t.partitions) q.topics).length ≤ 4096 := hb
    rw [List.length_append] at hb
    omega

/-- **C59**, ListOffsets: the client reads a response with the requested topics and partitions. Code 3 means that the partition did not exist when the
request was taken up. Otherwise the code is 0 and the answer is about the first `n` records of the partition, for some `n` between the numbers of records at
the start and at the end of the request: for timestamp -1 it is `n`; for -2 it is 0; for any other, the `TimeOffset` of C30. -/
theorem C59_list_offsets {sv : Server} {clock : Int} {k : Nat} {q : ListOffsetsRequest} {c : I32} {t1 tr : List SEv} {s1 s2 : Sys}
    (h : Exchange sv clock k (.listOffsets q) c t1 s1 tr s2) :
    ∃ x, Client.response Client.listOffsets (sent (actsOf k tr)) = some ((c, x), []) ∧
      List.Forall₂ (fun (qt : ListOffsetsTopic) (rt : ListOffsetsRespTopic) => rt.name = qt.name ∧
        List.Forall₂ (fun (qp : ListOffsetsPartition) (rp : ListOffsetsRespPartition) => rp.partitionIndex = qp.partitionIndex ∧
          (rp.errorCode = 3 ∧ ¬ (s1.view 0).hasPartition qt.name qp.partitionIndex ∨
           rp.errorCode = 0 ∧ (s2.view 0).hasPartition qt.name qp.partitionIndex ∧
             ∃ n, ((s1.view 0).log qt.name qp.partitionIndex).length ≤ n ∧ n ≤ ((s2.view 0).log qt.name qp.partitionIndex).length ∧
               let log := ((s2.view 0).log qt.name qp.partitionIndex).take n
               (qp.timestamp.toInt = -1 → rp.offset = BitVec.ofNat 64 n) ∧
               (qp.timestamp.toInt = -2 → rp.offset = 0 ∧ rp.timestamp = (log[0]?.map (·.timestamp)).getD 0) ∧
               (qp.timestamp.toInt ≠ -1 → qp.timestamp.toInt ≠ -2 → ∃ o, rp.offset = BitVec.ofNat 64 o ∧ TimeOffset log qp.timestamp.toInt o)))
          qt.partitions rt.partitions) q.topics x.topics := by
  obtain ⟨ctx, es, h1, h2, h3⟩ := h.run
  obtain ⟨x, ta, tb, w1, rfl, h4, h5, h6⟩ := listOffsets_request h1
  refine ⟨x, by rw [← h2]; exact h6, List.Forall₂.imp ?_ (listOffsets_answers h4)⟩
  rintro qt rt ⟨e1, e2⟩
  refine ⟨e1, List.Forall₂.imp ?_ e2⟩
  rintro qp rp ⟨g1, g2⟩
  refine ⟨g1, ?_⟩
  rcases g2 with ⟨g2, _, _, u0, u1, wm, rfl, g3, g4, g5⟩ | ⟨g2, u0, u1, wm, rfl, g3, g4, g5, g6, g7, g8⟩
  · exact .inl ⟨g2, fun hp => g5 (g3.hasPartition hp)⟩
  · have e3 : (s2.view 0).log qt.name qp.partitionIndex = wm.log qt.name qp.partitionIndex ++ Spec.posts (effects (u1 ++ tb)) qt.name qp.partitionIndex :=
      (g4.append h5).log ..
    have e4 : wm.log qt.name qp.partitionIndex = (s1.view 0).log qt.name qp.partitionIndex ++ Spec.posts (effects u0) qt.name qp.partitionIndex := g3.log ..
    refine .inr ⟨g2, (g4.append h5).hasPartition g5, (wm.log qt.name qp.partitionIndex).length, by rw [e4]; simp, by rw [e3]; simp, ?_⟩
    rw [e3, List.take_append_of_le_length (Nat.le_refl _), List.take_length]
    refine ⟨fun e => (g6 e).1, g7, fun n1 n2 => ?_⟩
    obtain ⟨o, o1, o2, _⟩ := g8 n1 n2
    exact ⟨o, o1, o2⟩

/-! ### OffsetFetch -/

theorem sum_map_le {α : Type} {f g : α → Nat} {l : List α} (h : ∀ x ∈ l, f x ≤ g x) : (l.map f).sum ≤ (l.map g).sum := by
  induction l with
  | nil => simp
  | cons x l ih =>
    have := h x List.mem_cons_self
    have := ih fun y hy => h y (List.mem_cons_of_mem _ hy)
    simp only [List.map_cons, List.sum_cons]; omega

theorem sum_map_le_mul {α : Type} {f : α → Nat} {l : List α} {m : Nat} (h : ∀ x ∈ l, f x ≤ m) : (l.map f).sum ≤ l.length * m := by
  induction l with
  | nil => simp
  | cons x l ih =>
    have := h x List.mem_cons_self
    have := ih fun y hy => h y (List.mem_cons_of_mem _ hy)
    simp only [List.map_cons, List.sum_cons, List.length_cons, Nat.add_mul]; omega

theorem offsetFetch_body {q : OffsetFetchRequest} (hb : (Request.offsetFetch q).body.length ≤ 4096) :
    (OffsetFetchRequest.named q).length ≤ 1024 ∧ ∀ x ∈ OffsetFetchRequest.named q, x.1.length ≤ 4096 := by
  have hb : (str q.groupId ++ array (fun t : OffsetFetchTopic => str t.name ++ array Spec.int32 t.partitionIndexes) q.topics).length ≤ 4096 := hb
  rw [List.length_append, array_length] at hb
  have hi : ∀ t : OffsetFetchTopic, (str t.name ++ array Spec.int32 t.partitionIndexes).length = 2 + t.name.length + (4 + 4 * t.partitionIndexes.length) := by
    intro t
    rw [List.length_append, str_length, array_length]
    have : (t.partitionIndexes.map fun x => (Spec.int32 x).length) = t.partitionIndexes.map fun _ => 4 := rfl
    rw [this, List.map_const', List.sum_replicate_nat]; omega
  simp only [hi] at hb
  constructor
  · have : 4 * (OffsetFetchRequest.named q).length ≤ (q.topics.map fun t => 2 + t.name.length + (4 + 4 * t.partitionIndexes.length)).sum := by
      unfold OffsetFetchRequest.named
      rw [List.length_flatMap]
      generalize q.topics = l
      induction l with
      | nil => simp
      | cons t l ih => simp only [List.map_cons, List.sum_cons, List.length_map] at ih ⊢; omega
    omega
  · intro x hx
    unfold OffsetFetchRequest.named at hx
    obtain ⟨t, ht, hx⟩ := List.mem_flatMap.1 hx
    obtain ⟨p, _, rfl⟩ := List.mem_map.1 hx
    have : ∀ {l : List OffsetFetchTopic}, t ∈ l → t.name.length ≤ (l.map fun t => 2 + t.name.length + (4 + 4 * t.partitionIndexes.length)).sum := by
      intro l hl
      induction l with
      | nil => cases hl
      | cons y l ih =>
        simp only [List.map_cons, List.sum_cons]
        rcases List.mem_cons.1 hl with rfl | hl
        · omega
        · have := ih hl; omega
    have := this ht
    show t.name.length ≤ 4096
    omega

theorem offsetFetch_request {sv : Server} {q : OffsetFetchRequest} {c : I32} {hist : List Ev} {w w' : World} {tr : List Ev} (hr : ReachedBy hist w)
    (h : RequestRun sv (.offsetFetch q) c w tr w' (.ret .done)) : ∃ x t1 t2 w1, tr = t1 ++ t2 ∧ Exec w (offsetFetch q) t1 w1 (.ret x) ∧ Steps w1 t2 w' ∧
      ClientReads Client.offsetFetch tr c x := by
  obtain ⟨_, hw1, hw2⟩ := h.wellFormed
  obtain ⟨t1, t2, w1, x, rfl, h1, h2, h3, _⟩ := h.done (p := offsetFetch q) (f := offsetFetchResponse) rfl
  obtain ⟨hn, hnames⟩ := offsetFetch_body h.body
  obtain ⟨fl, f1, f2, f3, f4, f5⟩ := C26_offset_fetch_exact hr h1
  have hfl : fl.length ≤ 1024 := by rw [← f1, List.length_map] at hn; exact hn
  have named : ∀ rt ∈ x.topics, rt.name.length ≤ 4096 ∧ ShortStr rt.name := by
    intro rt hrt
    obtain ⟨y, hy, _, e⟩ := (f4 rt.name).1 (List.mem_map_of_mem hrt)
    have hm : y.1 ∈ OffsetFetchRequest.named q := by rw [← f1]; exact List.mem_map_of_mem hy
    have := hnames _ hm
    rw [e] at this
    refine ⟨this, ?_⟩
    unfold ShortStr; omega
  have htop : x.topics.length ≤ 1024 := by
    have hsub : x.topics.map (·.name) ⊆ fl.map fun y => y.1.1 := by
      intro n hn
      obtain ⟨y, hy, _, e⟩ := (f4 n).1 hn
      exact List.mem_map.2 ⟨y, hy, e⟩
    have := (List.subperm_of_subset f3 hsub).length_le
    rw [List.length_map, List.length_map] at this
    omega
  have hpar : ∀ rt ∈ x.topics, rt.partitions.length ≤ 1024 := by
    intro rt hrt
    have := (f5 rt hrt).length_eq
    rw [List.length_map] at this
    have := List.length_filter_le (fun x : (Bytes × I32) × Bool => x.2 && decide (x.1.1 = rt.name)) fl
    omega
  have hmeta : ∀ rt ∈ x.topics, ∀ rp ∈ rt.partitions, rp.metadata = none := by
    intro rt hrt rp hrp
    obtain ⟨n, hn⟩ := List.getElem?_of_mem hrp
    obtain ⟨_, _, _, _, g, _⟩ := forall₂_get (f5 rt hrt) hn
    exact g
  refine ⟨x, t1, t2, w1, rfl, h1, h2, clientReads h3 (Client.parses_offsetFetch ?_ ?_) ?_⟩
  · unfold ShortList; omega
  · intro rt hrt
    refine ⟨(named rt hrt).2, by unfold ShortList; have := hpar rt hrt; omega, ?_⟩
    intro rp hrp m hm
    rw [hmeta rt hrt rp hrp] at hm; cases hm
  · unfold offsetFetchResponse
    rw [array_length]
    have : (x.topics.map fun t : OffsetFetchRespTopic => (str t.name ++ array (fun p : OffsetFetchRespPartition =>
        Spec.int32 p.partitionIndex ++ Spec.int64 p.committedOffset ++ nullableStr p.metadata ++ Spec.int16 p.errorCode) t.partitions).length).sum ≤
        x.topics.length * 20500 := by
      refine sum_map_le_mul fun rt hrt => ?_
      rw [List.length_append, str_length, array_length]
      have e : (rt.partitions.map fun p => (Spec.int32 p.partitionIndex ++ Spec.int64 p.committedOffset ++ nullableStr p.metadata ++ Spec.int16 p.errorCode).length).sum ≤
          rt.partitions.length * 16 := by
        refine sum_map_le_mul fun rp hrp => ?_
        rw [hmeta rt hrt rp hrp]
        simp [Spec.int32, Spec.int64, Spec.int16, nullableStr]
      have := (named rt hrt).1
      have := hpar rt hrt
      omega
    have : x.topics.length * 20500 ≤ 1024 * 20500 := Nat.mul_le_mul_right _ htop
    omega

/-- A state of the mock is a world reached by its history. -/
theorem reachedBy {sv : Server} {clock : Int} {tr : List SEv} {s : Sys} (h : Sys.Run (Sys.new sv clock) tr s) (ctx : Nat) :
    ∃ hist, ReachedBy hist (s.view ctx) ∧ effects hist = effectsOf tr := by
  obtain ⟨es, h1, h2⟩ := h.steps ctx
  exact ⟨es, ⟨clock, h1⟩, h2⟩

/-- **C59**, OffsetFetch: the client reads a response in which no topic occurs twice. Every requested partition that existed when the request was taken up has
an entry. Every entry is for a requested partition that exists when the request has been answered, and gives, without error, the group's committed offset at
some moment of the request: that at its start, updated by a first part of the commits and resets during the request. -/
theorem C59_offset_fetch {sv : Server} {clock : Int} {k : Nat} {q : OffsetFetchRequest} {c : I32} {t1 tr : List SEv} {s1 s2 : Sys}
    (h : Exchange sv clock k (.offsetFetch q) c t1 s1 tr s2) :
    ∃ x, Client.response Client.offsetFetch (sent (actsOf k tr)) = some ((c, x), []) ∧ (x.topics.map (·.name)).Nodup ∧
      (∀ qt ∈ q.topics, ∀ p ∈ qt.partitionIndexes, (s1.view 0).hasPartition qt.name p →
        ∃ rt ∈ x.topics, rt.name = qt.name ∧ ∃ rp ∈ rt.partitions, rp.partitionIndex = p) ∧
      ∀ rt ∈ x.topics, ∀ rp ∈ rt.partitions, (∃ qt ∈ q.topics, qt.name = rt.name ∧ rp.partitionIndex ∈ qt.partitionIndexes) ∧
        (s2.view 0).hasPartition rt.name rp.partitionIndex ∧ rp.errorCode = 0 ∧
        ∃ n, rp.committedOffset.toInt =
          Spec.committedFrom ((s1.view 0).committed rt.name rp.partitionIndex q.groupId).toInt ((effectsOf tr).take n) rt.name rp.partitionIndex q.groupId := by
  obtain ⟨ctx, es, h1, h2, h3⟩ := h.run
  obtain ⟨_, _, _, hs⟩ := h.serves
  obtain ⟨s0, r0, r1⟩ := hs.begins
  obtain ⟨hist, hr, _⟩ := reachedBy (r0.append (.cons r1 (.nil _))) ctx
  obtain ⟨x, ta, tb, w1, rfl, h4, h5, h6⟩ := offsetFetch_request hr h1
  obtain ⟨fl, f1, f2, f3, f4, f5⟩ := C26_offset_fetch_exact hr h4
  refine ⟨x, by rw [← h2]; exact h6, f3, ?_, ?_⟩
  · intro qt hqt p hp hex
    have hm : (qt.name, p) ∈ OffsetFetchRequest.named q := List.mem_flatMap.2 ⟨qt, hqt, List.mem_map.2 ⟨p, hp, rfl⟩⟩
    rw [← f1] at hm
    obtain ⟨⟨y, b⟩, hy, e⟩ := List.mem_map.1 hm
    simp only at e
    subst e
    obtain ⟨u0, u1, wm, _, hs, _, hiff⟩ := f2 _ hy
    have hb : b = true := hiff.2 (hs.hasPartition hex)
    subst hb
    obtain ⟨rt, hrt, e⟩ := List.mem_map.1 ((f4 qt.name).2 ⟨_, hy, rfl, rfl⟩)
    refine ⟨rt, hrt, e, ?_⟩
    have hin : (qt.name, p) ∈ (fl.filter fun x => x.2 && decide (x.1.1 = rt.name)).map (·.1) :=
      List.mem_map.2 ⟨_, List.mem_filter.2 ⟨hy, by simp [e]⟩, rfl⟩
    obtain ⟨n, hn⟩ := List.getElem?_of_mem hin
    have hlen := (f5 rt hrt).length_eq
    obtain ⟨hlt, _⟩ := List.getElem?_eq_some_iff.1 hn
    rw [hlen] at hlt
    have hz : rt.partitions[n]? = some rt.partitions[n] := List.getElem?_eq_getElem hlt
    refine ⟨rt.partitions[n], List.getElem_mem hlt, ?_⟩
    obtain ⟨a, ha, g, _⟩ := forall₂_get (f5 rt hrt) hz
    rw [hn] at ha; cases ha
    exact g
  · intro rt hrt rp hrp
    obtain ⟨n, hn⟩ := List.getElem?_of_mem hrp
    obtain ⟨a, ha, g1, g2, _, u0, u1, wm, rfl, g3, g4, g5⟩ := forall₂_get (f5 rt hrt) hn
    obtain ⟨⟨y, b⟩, hy, e⟩ := List.mem_map.1 (List.mem_of_getElem? ha)
    simp only at e
    subst e
    obtain ⟨hy, hb⟩ := List.mem_filter.1 hy
    simp only [Bool.and_eq_true, decide_eq_true_eq] at hb
    obtain ⟨rfl, hname⟩ := hb
    have hm : y ∈ OffsetFetchRequest.named q := by rw [← f1]; exact List.mem_map.2 ⟨_, hy, rfl⟩
    obtain ⟨qt, hqt, hm⟩ := List.mem_flatMap.1 hm
    obtain ⟨p, hp, rfl⟩ := List.mem_map.1 hm
    dsimp only at g1 g5 hname
    refine ⟨⟨qt, hqt, hname, by rw [g1]; exact hp⟩, ?_, g2, (effects u0).length, ?_⟩
    · obtain ⟨v0, v1, wn, ev, k3, k4, k5⟩ := f2 _ hy
      rw [g1, ← hname]
      exact (k4.append h5).hasPartition (k5.1 rfl)
    · rw [g5, g3.committed, ← h3, List.append_assoc, effects_append, List.take_left, g1, ← hname]
      rfl

/-! ### SyncGroup -/

/-- **C59**, SyncGroup without assignments: the client reads an assignment that names every topic and partition that existed when the request was taken up, each
once, and no topic or partition that does not exist when it has been answered. -/
theorem C59_sync_group {sv : Server} {clock : Int} {k : Nat} {g m : Bytes} {gen c : I32} {t1 tr : List SEv} {s1 s2 : Sys}
    (h : Exchange sv clock k (.syncGroup g gen m []) c t1 s1 tr s2) (hnames : ∀ t, (s2.view 0).hasTopic t → ShortStr t)
    (hl : (sent (actsOf k tr)).length < 2 ^ 31) :
    ∃ ts, Client.response Client.syncGroup (sent (actsOf k tr)) = some ((c, 0, 1, ts, none), []) ∧ Assigned (s1.view 0) (s2.view 0) ts := by
  obtain ⟨ctx, es, h1, h2, h3⟩ := h.run
  obtain ⟨_, _, _, hs⟩ := h.serves
  obtain ⟨s0, r0, r1⟩ := hs.begins
  obtain ⟨hist, hr, _⟩ := reachedBy (r0.append (.cons r1 (.nil _))) ctx
  obtain ⟨_, ts, h4, h5⟩ := C41_assignment hr h1 hnames (by rw [h2]; exact hl)
  exact ⟨ts, by rw [← h2]; exact h4, ⟨h5.once, h5.partsOnce, h5.topics, h5.topicsExist, h5.parts, h5.partsExist⟩⟩

/-! ### Examples -/

/-- The request arrives on connection `k`. -/
def asks (k : Nat) (req : Request) (c : I32) : List Pick :=
  [.conn k, .conn k, .recv k (.data (Spec.int32 (BitVec.ofNat 32 (req.message c (some [99])).length) ++ req.message c (some [99]))), .conn k, .conn k]

def begins (k : Nat) (m : Bytes) : SEv → Bool
  | .conn c (.reqBegin b) _ => c == k && b == m
  | _ => false

def endsOf (k : Nat) : SEv → Bool
  | .conn c .reqEnd _ => c == k
  | _ => false

def failsWrite : REv → Bool
  | ⟨.write _, false⟩ => true
  | _ => false

/-- The state in which connection `k` has taken up the request. -/
def taken (k : Nat) (req : Request) (c : I32) (s : Sys) : Sys := stateAfter [.conn k] (stateAfter (asks k req c) s)

/-- What happens while connection `k` takes `n` steps on the request. -/
def during (k n : Nat) (req : Request) (c : I32) (s : Sys) : List SEv := eventsOf (List.replicate n (.conn k)) (taken k req c s)

/-- The state in which connection `k` has taken `n` steps on the request. -/
def answered (k n : Nat) (req : Request) (c : I32) (s : Sys) : Sys := stateAfter (List.replicate n (.conn k)) (taken k req c s)

/-- A schedule in which connection `k` receives the request, answers it during `ps` and is about to be done with it. -/
theorem exchange_of_picks {s : Sys} {t0 : List SEv} (h0 : Sys.Run (Sys.new ⟨9092, []⟩ 0) t0 s) (k : Nat) (ps : List Pick) (req : Request) (c : I32) (hw : req.WellFormed)
    (h : ((((stateAfter (asks k req c) s).pick (.conn k)).any fun x => begins k (req.message c (some [99])) x.1) &&
      (((stateAfter ps (taken k req c s)).pick (.conn k)).any fun x => endsOf k x.1) &&
      ((eventsOf ps (taken k req c s)).all fun e => !endsOf k e) && ((actsOf k (eventsOf ps (taken k req c s))).all fun e => !failsWrite e) &&
      decide (req.body.length ≤ 4096) && decide ((header req.api.1 req.api.2 c (some [99])).length ≤ 4096) &&
      !(sent (actsOf k (eventsOf ps (taken k req c s)))).isEmpty) = true) :
    Exchange ⟨9092, []⟩ 0 k req c (t0 ++ eventsOf (asks k req c) s) (taken k req c s) (eventsOf ps (taken k req c s)) (stateAfter ps (taken k req c s)) := by
  simp only [Bool.and_eq_true, decide_eq_true_eq] at h
  obtain ⟨⟨⟨⟨⟨⟨a1, a2⟩, a3⟩, a4⟩, a6⟩, a7⟩, a8⟩ := h
  refine ⟨hw, a6, ⟨some [99], _, ⟨accepted_proper hw c ?_, a7⟩, ⟨⟨stateAfter (asks k req c) s, h0.append (stateAfter_run _ _), ?_⟩, stateAfter_run _ _, ?_, ?_⟩⟩, ?_, ?_⟩
  · intro x hx; cases hx; unfold ShortStr; decide
  · obtain ⟨⟨e, s1⟩, h1, h2⟩ := (Option.any_eq_true _ _).1 a1
    have h3 : taken k req c s = s1 := by
      unfold taken
      generalize stateAfter (asks k req c) s = s' at h1
      simp [stateAfter, Sys.play, h1]
    rw [h3]
    have h4 := Sys.pick_sound h1
    unfold begins at h2
    split at h2
    · next he =>
      simp only [Bool.and_eq_true, beq_iff_eq] at h2
      obtain ⟨rfl, rfl⟩ := h2
      dsimp only at he
      rw [he] at h4
      exact h4
    · cases h2
  · obtain ⟨⟨e, s1⟩, h1, h2⟩ := (Option.any_eq_true _ _).1 a2
    refine ⟨s1, ?_⟩
    have h4 := Sys.pick_sound h1
    unfold endsOf at h2
    split at h2
    · next he =>
      simp only [beq_iff_eq] at h2
      obtain rfl := h2
      dsimp only at he
      rw [he] at h4
      exact h4
    · cases h2
  · intro hm
    have := List.all_eq_true.1 a3 _ hm
    simp [endsOf] at this
  · intro b hm
    have := List.all_eq_true.1 a4 _ hm
    simp [failsWrite] at this
  · intro he
    rw [he] at a8
    cases a8

/-- A schedule in which connection `k` receives the request, answers it in `n` steps and is about to be done with it. -/
theorem exchange_of_play {s : Sys} {t0 : List SEv} (h0 : Sys.Run (Sys.new ⟨9092, []⟩ 0) t0 s) (k n : Nat) (req : Request) (c : I32) (hw : req.WellFormed)
    (h : ((((stateAfter (asks k req c) s).pick (.conn k)).any fun x => begins k (req.message c (some [99])) x.1) &&
      (((answered k n req c s).pick (.conn k)).any fun x => endsOf k x.1) &&
      ((during k n req c s).all fun e => !endsOf k e) && ((actsOf k (during k n req c s)).all fun e => !failsWrite e) &&
      decide (req.body.length ≤ 4096) && decide ((header req.api.1 req.api.2 c (some [99])).length ≤ 4096) &&
      !(sent (actsOf k (during k n req c s))).isEmpty) = true) :
    Exchange ⟨9092, []⟩ 0 k req c (t0 ++ eventsOf (asks k req c) s) (taken k req c s) (during k n req c s) (answered k n req c s) :=
  exchange_of_picks h0 k (List.replicate n (.conn k)) req c hw h

/-- A mock with one record, and one connection. -/
def oneRecord : Sys := after (bootAndPost ++ accepts 0)

theorem oneRecord_run : ∃ t0, Sys.Run (Sys.new ⟨9092, []⟩ 0) t0 oneRecord := ⟨_, stateAfter_run (bootAndPost ++ accepts 0) _⟩

theorem shortStr {s : Bytes} (h : s.length ≤ 100) : ShortStr s := by unfold ShortStr; omega

/-- A Fetch of the record, a commit, and requests about the group's offset, the end of the log and the assignment. -/
def askFetch : Request := .fetch ⟨-1, 100, 1, [⟨[116], [⟨0, 0, 1000⟩]⟩]⟩
def askCommit : Request := .offsetCommit ⟨[103], 1, [109], -1, [⟨[116], [⟨0, 1, none⟩, ⟨5, 1, none⟩]⟩]⟩
def askOffset : Request := .offsetFetch ⟨[103], [⟨[116], [0, 5]⟩]⟩
def askLatest : Request := .listOffsets ⟨-1, [⟨[116], [⟨0, -1⟩, ⟨5, -1⟩]⟩]⟩
def askSync : Request := .syncGroup [103] 1 [109] []


theorem askFetch_wf : askFetch.WellFormed := by
  unfold askFetch Request.WellFormed ShortList ShortStr
  decide

theorem askCommit_wf : askCommit.WellFormed := by
  unfold askCommit Request.WellFormed ShortList ShortStr
  decide

theorem askOffset_wf : askOffset.WellFormed := by
  unfold askOffset Request.WellFormed ShortList ShortStr
  decide

theorem askLatest_wf : askLatest.WellFormed := by
  unfold askLatest Request.WellFormed ShortList ShortStr
  decide

theorem askSync_wf : askSync.WellFormed := by
  unfold askSync Request.WellFormed ShortList ShortStr
  decide

set_option synthInstance.maxSize 1000 in
/-- The hypotheses of `C59_fetch_partial`: the record is fetched. -/
example : ∃ t1, Exchange ⟨9092, []⟩ 0 0 askFetch 7 t1 (taken 0 askFetch 7 oneRecord) (during 0 10 askFetch 7 oneRecord) (answered 0 10 askFetch 7 oneRecord) ∧
    ((Client.response Client.fetch (sent (actsOf 0 (during 0 10 askFetch 7 oneRecord)))).map fun x =>
      x.1.2.2.map fun t => t.2.map fun p => (p.partition, p.highWatermark, p.messages.map (·.value))) = some [[(0, 1, [some [1, 2]])]] := by
  obtain ⟨t0, h⟩ := oneRecord_run
  exact ⟨_, exchange_of_play h 0 10 askFetch 7 askFetch_wf (by decide +kernel), by decide +kernel⟩

/-- The hypotheses of `C59_commit`: a commit for a partition that exists and one that does not. -/
example : ∃ t1, Exchange ⟨9092, []⟩ 0 0 askCommit 7 t1 (taken 0 askCommit 7 oneRecord) (during 0 7 askCommit 7 oneRecord) (answered 0 7 askCommit 7 oneRecord) ∧
    ((Client.response Client.commit (sent (actsOf 0 (during 0 7 askCommit 7 oneRecord)))).map fun x =>
      x.1.2.topics.map fun t => (t.name, t.partitions.map fun p => (p.partitionIndex, p.errorCode))) = some [([116], [(0, 0), (5, 3)])] := by
  obtain ⟨t0, h⟩ := oneRecord_run
  exact ⟨_, exchange_of_play h 0 7 askCommit 7 askCommit_wf (by decide +kernel), by decide +kernel⟩

/-- The hypotheses of `C59_offset_fetch`. -/
example : ∃ t1, Exchange ⟨9092, []⟩ 0 0 askOffset 7 t1 (taken 0 askOffset 7 oneRecord) (during 0 9 askOffset 7 oneRecord) (answered 0 9 askOffset 7 oneRecord) ∧
    ((Client.response Client.offsetFetch (sent (actsOf 0 (during 0 9 askOffset 7 oneRecord)))).map fun x =>
      x.1.2.topics.map fun t => (t.name, t.partitions.map fun p => (p.partitionIndex, p.committedOffset))) = some [([116], [(0, 0)])] := by
  obtain ⟨t0, h⟩ := oneRecord_run
  exact ⟨_, exchange_of_play h 0 9 askOffset 7 askOffset_wf (by decide +kernel), by decide +kernel⟩

/-- The hypotheses of `C59_list_offsets`. -/
example : ∃ t1, Exchange ⟨9092, []⟩ 0 0 askLatest 7 t1 (taken 0 askLatest 7 oneRecord) (during 0 8 askLatest 7 oneRecord) (answered 0 8 askLatest 7 oneRecord) ∧
    ((Client.response Client.listOffsets (sent (actsOf 0 (during 0 8 askLatest 7 oneRecord)))).map fun x =>
      x.1.2.topics.map fun t => (t.name, t.partitions.map fun p => (p.partitionIndex, p.errorCode, p.offset))) = some [([116], [(0, 0, 1), (5, 3, 0)])] := by
  obtain ⟨t0, h⟩ := oneRecord_run
  exact ⟨_, exchange_of_play h 0 8 askLatest 7 askLatest_wf (by decide +kernel), by decide +kernel⟩

/-- The hypotheses of `C59_sync_group`. -/
example : ∃ t1, Exchange ⟨9092, []⟩ 0 0 askSync 7 t1 (taken 0 askSync 7 oneRecord) (during 0 5 askSync 7 oneRecord) (answered 0 5 askSync 7 oneRecord) ∧
    ((Client.response Client.syncGroup (sent (actsOf 0 (during 0 5 askSync 7 oneRecord)))).map fun x => x.1.2.2.2.1) = some [([116], [0])] := by
  obtain ⟨t0, h⟩ := oneRecord_run
  exact ⟨_, exchange_of_play h 0 5 askSync 7 askSync_wf (by decide +kernel), by decide +kernel⟩

end KM.Props
