import Verif.Props.Alone
/-
C96: what a Fetch request is told of all its partitions is true at one moment. C97: so the answer respects the order in which records were posted to different topics.
-/
namespace KM.Props
open KM Spec

/-- The fetch data of a partition, when it holds what the partition has in world `wm`. `N` says that the partition was missing. -/
def FetchedAt (N : Bytes × FetchPartition → Prop) (wm : World) (src : Bytes × FetchPartition) (fd : FetchData) : Prop :=
  fd.offset = src.2.fetchOffset.toInt + fd.ms.msgs.length ∧
  ((N src ∧ fd.ms.msgs = []) ∨ Labelled src.2.fetchOffset.toInt ((wm.log src.1 src.2.partition).drop src.2.fetchOffset.toInt.toNat) fd.ms.msgs)

theorem moment_missing {w w' : World} {tr : List Ev} {t : Bytes} {p : I32} (h : Moment w tr w' fun wm => ¬ wm.hasPartition t p) : ¬ w.hasPartition t p := by
  obtain ⟨_, _, _, _, h1, _, h2⟩ := h
  exact fun h3 => h2 (h1.hasPartition h3)

/-- The world at the beginning of the last round of Fetch, which finds nothing new in any partition, has of each partition just the records that were fetched. -/
theorem fetch_snapshot {q : FetchRequest} {resp : FetchResponse} {w w' : World} {tr : List Ev} (h : Exec w (fetch q) tr w' (.ret resp)) :
    ∃ fds, fetchRespond q.topics fds = some resp.responses ∧
      Moment w tr w' fun wm => List.Forall₂ (FetchedAt (fun src => ¬ w.hasPartition src.1 src.2.partition) wm) q.named fds := by
  obtain ⟨t1, t2, w1, fds, h1, h2, rfl⟩ := exec_bind_ret h
  obtain ⟨t3, w3, r3, w4, t4, h3, s3, h4, rfl⟩ := exec_act_ret h2
  obtain ⟨n, t5, w5, st, t6, fds', w6, t7, h5, h6, h7, rfl⟩ := exec_loop_ret h4
  obtain ⟨t8, w8, fds2, m, t9, hp, hs1, hs2, rfl, rfl, rfl⟩ := fetchBody_ret h6
  obtain ⟨rfl, hq⟩ := hp.quiet
  cases hf : fetchRespond q.topics st.fds with
  | none => rw [hf] at h7; obtain ⟨e, _⟩ := exec_panic_inv h7; cases e
  | some rs =>
    rw [hf] at h7
    obtain ⟨e, h9⟩ := exec_ret_inv h7
    cases e
    refine ⟨st.fds, hf, ?_⟩
    have hpost : Steps w8 (t9 ++ t7) w' := hs2.append h9.1
    have hmid : Steps w1 (t3 ++ ⟨true, .now, r3⟩ :: t5) w5 := h3.1.append (.cons ⟨true, .now, r3⟩ s3 h5.steps)
    have hpre : Steps w (t1 ++ (t3 ++ ⟨true, .now, r3⟩ :: t5)) w5 := h1.steps.append hmid
    refine ⟨_, t8 ++ (t9 ++ t7), w5, by simp, hpre, hs1.append hpost, ?_⟩
    have i0 : List.Forall₂ (FdInv (fun src => ¬ w.hasPartition src.1 src.2.partition) w4) q.named fds := by
      refine List.Forall₂.imp ?_ (fetchSetup_ret h1)
      intro src fd hi
      have hi := hi.steps (h3.1.append (.cons ⟨true, .now, r3⟩ s3 (.nil _)))
      exact hi.mono moment_missing
    have i1 := fetchRounds_inv h5 i0
    have one : ∀ src fd, fd ∈ st.fds → FdInv (fun src => ¬ w.hasPartition src.1 src.2.partition) w5 src fd →
        FetchedAt (fun src => ¬ w.hasPartition src.1 src.2.partition) w5 src fd := by
      rintro src fd hm ⟨i1, i2, recs, i3, i4, i5, i6, i7⟩
      refine ⟨by rw [i4, i6, List.length_mapIdx], ?_⟩
      rcases i2 with ⟨i2, i2'⟩ | ⟨i2, _⟩
      · left
        rcases i3 with i3 | ⟨_, _, i3, _⟩
        · subst i3
          exact ⟨i2', by simpa using i6⟩
        · rw [i2] at i3; cases i3
      · right
        obtain ⟨ta, tb, wm, rfl, sa, sb, hp, hlen⟩ := hq _ hm _ _ i2
        have hle : ((w5.log src.1 src.2.partition).length : Int) ≤ fd.offset := by
          rw [sa.log, List.length_append] at hlen; omega
        have hpre : recs <+: (w5.log src.1 src.2.partition).drop src.2.fetchOffset.toInt.toNat := by
          rcases i3 with i3 | ⟨_, _, _, i3⟩
          · subst i3; exact List.nil_prefix
          · exact i3
        have hnn : 0 ≤ src.2.fetchOffset.toInt := by
          rcases i3 with i3 | ⟨i3, _⟩
          · subst i3; simp at i4; omega
          · exact i3
        have heq : recs = (w5.log src.1 src.2.partition).drop src.2.fetchOffset.toInt.toNat := by
          refine List.IsPrefix.eq_of_length_le hpre ?_
          rw [List.length_drop]; omega
        rw [← heq, i6]
        exact labelled_mapIdx _ _
    have key : ∀ {srcs : List (Bytes × FetchPartition)} {l : List FetchData}, (∀ fd ∈ l, fd ∈ st.fds) →
        List.Forall₂ (FdInv (fun src => ¬ w.hasPartition src.1 src.2.partition) w5) srcs l →
        List.Forall₂ (FetchedAt (fun src => ¬ w.hasPartition src.1 src.2.partition) w5) srcs l := by
      intro srcs l hmem hf
      induction hf with
      | nil => exact .nil
      | cons hab _ ih =>
        exact .cons (one _ _ (hmem _ (List.mem_cons_self ..)) hab) (ih fun fd hfd => hmem fd (List.mem_cons_of_mem _ hfd))
    exact key (fun _ h => h) i1

/-- What the client reads, from the response that Fetch returns. -/
theorem fetch_read {sv : Server} {q : FetchRequest} {c : I32} {w w' : World} {tr : List Ev} (h : RequestRun sv (.fetch q) c w tr w' (.ret .done))
    (hs : ∀ t p, ∀ r ∈ w'.log t p, wireSize r < 2 ^ 31) (hl : (sent (own tr)).length < 2 ^ 31) :
    ∃ t1 t2 w1 resp, tr = t1 ++ t2 ∧ Exec w (fetch q) t1 w1 (.ret resp) ∧ Steps w1 t2 w' ∧
      ClientReads Client.fetch tr c (0, resp.responses.map fun t => (t.topic, t.partitions.map Client.FetchedPartition.of)) := by
  obtain ⟨hw1, hw2⟩ := h.wellFormed
  obtain ⟨t1, t2, w1, resp, rfl, h1, h2, h3, _⟩ := h.done (p := fetch q) (f := fetchResponse) rfl
  refine ⟨t1, t2, w1, resp, rfl, h1, h2, ?_⟩
  obtain ⟨fds, h4, h5, h6⟩ := fetch_ret h1
  have hs1 : ∀ t p, ∀ r ∈ w1.log t p, wireSize r < 2 ^ 31 := fun t p r hr => hs t p r (by rw [h2.log]; exact List.mem_append_left _ hr)
  have h8 : List.Forall₂ (fun (qt : FetchTopic × Nat) (rt : FetchRespTopic) => qt.1 ∈ q.topics ∧ rt.topic = qt.1.topic ∧
      List.Forall₂ (fun (_ : FetchPartition) (rp : FetchRespPartition) => Client.GoodSet rp.records)
        qt.1.partitions rt.partitions) q.topics.zipIdx resp.responses := by
    have := (List.forall₂_and_left _ _).2 ⟨fun x hx => hx, fetchRespond_eq h5⟩
    refine List.Forall₂.imp ?_ this
    rintro ⟨qt, n⟩ rt ⟨hm, fd, hfd, e1, e2⟩
    obtain ⟨src, hsrc, hf⟩ := forall₂_get h4 hfd
    refine ⟨List.mem_of_getElem? (mem_zipIdx_get hm), e1, ?_⟩
    rw [e2, List.forall₂_map_right_iff]
    exact List.forall₂_same.2 fun par _ => (Fetched.answers hf (hs1 _ _)).2
  have hlen := h8.length_eq
  rw [List.length_zipIdx] at hlen
  have := Client.parses_fetch (x := resp) (by unfold ShortList at *; omega) (by
    intro rt hrt
    obtain ⟨n, hn⟩ := List.getElem?_of_mem hrt
    obtain ⟨qt, _, g1, g2, g4⟩ := forall₂_get h8 hn
    obtain ⟨k1, k2⟩ := hw2 _ g1
    refine ⟨by rw [g2]; exact k1, by unfold ShortList at *; rw [← g4.length_eq]; exact k2, ?_⟩
    intro rp hrp
    obtain ⟨m, hm⟩ := List.getElem?_of_mem hrp
    obtain ⟨_, _, g5⟩ := forall₂_get g4 hm
    exact g5)
  rw [h6] at this
  refine clientReads h3 this ?_
  rw [h3, responseBytes_length] at hl
  omega

/-- After any number of the effects of a run there is a moment at which all logs are as these effects leave them. -/
theorem sometime_logs {s s' : Sys} {tr : List SEv} (h : Sys.Run s tr s') (n : Nat) :
    Sometime s tr s' fun sm => ∀ t p, (sm.view 0).log t p = (s.view 0).log t p ++ Spec.posts ((effectsOf tr).take n) t p := by
  obtain ⟨ta, tb, rfl, e1, e2⟩ := List.filterMap_eq_append_iff.1 (show effectsOf tr = (effectsOf tr).take n ++ (effectsOf tr).drop n by simp)
  obtain ⟨sm, h1, h2⟩ := run_split h
  rw [← e1]
  exact ⟨ta, tb, sm, rfl, h1, h2, (C46_kept h1).1⟩

/-- A partition of a Fetch request was there when the request was taken up, or has got no record until its answer. -/
def Settled (s1 s2 : Sys) (t : Bytes) (p : I32) : Prop := (s1.view 0).hasPartition t p ∨ (s2.view 0).log t p = []

/-- **C96**: with one partition per topic, and as long as no record and the response itself are 2 GiB or more, there is one moment between the taking up of a Fetch request
and its answer at which the messages given for each partition are exactly its records, from the requested offset on: the answer is a snapshot of all the partitions it names.
Missing for the full statement: partitions that are created and written while the request is served, for which it is false, `C96_false`; and requests that name several
partitions of one topic, for which already C59 is false, `C59_false`. -/
theorem C96_snapshot_partial {sv : Server} {clock : Int} {k : Nat} {q : FetchRequest} {c : I32} {t1 tr : List SEv} {s1 s2 : Sys}
    (h : Exchange sv clock k (.fetch q) c t1 s1 tr s2) (single : ∀ t ∈ q.topics, ∃ p, t.partitions = [p])
    (hs : ∀ t p, ∀ r ∈ (s2.view 0).log t p, wireSize r < 2 ^ 31) (hl : (sent (actsOf k tr)).length < 2 ^ 31)
    (settled : ∀ t ∈ q.topics, ∀ p ∈ t.partitions, Settled s1 s2 t.topic p.partition) :
    ∃ x, Client.response Client.fetch (sent (actsOf k tr)) = some ((c, 0, x), []) ∧
      Sometime s1 tr s2 fun sm =>
        List.Forall₂ (fun (qt : FetchTopic) (rt : Bytes × List Client.FetchedPartition) => rt.1 = qt.topic ∧
          List.Forall₂ (fun (par : FetchPartition) (fp : Client.FetchedPartition) => fp.partition = par.partition ∧ fp.errorCode = 0 ∧
            fp.highWatermark = BitVec.ofInt 64 (par.fetchOffset.toInt + fp.messages.length) ∧
            Labelled par.fetchOffset.toInt (((sm.view 0).log qt.topic par.partition).drop par.fetchOffset.toInt.toNat) fp.messages)
            qt.partitions rt.2) q.topics x := by
  obtain ⟨x, g1, g2⟩ := C73_fetch_partial h single hs hl
  refine ⟨x, g1, ?_⟩
  obtain ⟨ctx, es, h1, h2, h3⟩ := h.run
  obtain ⟨_, _, _, h0⟩ := h.serves
  obtain ⟨ta, tb, w1, resp, rfl, h4, h5, h6⟩ := fetch_read h1 hs (by rw [h2]; exact hl)
  obtain ⟨fds, h7, tc, td, wm, rfl, h8, h9, h10⟩ := fetch_snapshot h4
  have hx : x = resp.responses.map fun t => (t.topic, t.partitions.map Client.FetchedPartition.of) := by
    unfold ClientReads at h6
    rw [h2, g1] at h6
    simpa using h6
  have hn : (effectsOf tr).take (effects tc).length = effects tc := by
    rw [← h3]; simp [effects]
  obtain ⟨t3, t4, sm, e, r1, r2, r3⟩ := sometime_logs h0.during (effects tc).length
  have hlog : ∀ t p, (sm.view 0).log t p = wm.log t p := fun t p => by rw [r3, hn]; exact (h8.log t p).symm
  refine ⟨t3, t4, sm, e, r1, r2, ?_⟩
  show List.Forall₂ (fun (qt : FetchTopic) (rt : Bytes × List Client.FetchedPartition) => _) _ _
  have key : List.Forall₂ (fun (qt : FetchTopic) (rt : Bytes × List Client.FetchedPartition) =>
      ∀ par ∈ qt.partitions, ∀ fp ∈ rt.2, Labelled par.fetchOffset.toInt (((sm.view 0).log qt.topic par.partition).drop par.fetchOffset.toInt.toNat) fp.messages)
      q.topics x := by
    have hz : q.topics = q.topics.zipIdx.map Prod.fst := by simp
    rw [hx, hz, List.forall₂_map_left_iff, List.forall₂_map_right_iff]
    have := (List.forall₂_and_left _ _).2 ⟨fun x hx => hx, fetchRespond_eq h7⟩
    refine List.Forall₂.imp ?_ this
    rintro ⟨qt, n⟩ rt ⟨hm, fd, hfd, e1, e2⟩ par hpar fp hfp
    obtain ⟨p, e4, e5⟩ := named_single single (mem_zipIdx_get hm)
    obtain ⟨src, hsrc, hf⟩ := forall₂_get h10 hfd
    have e6 : q.named[n]? = some (qt.topic, p) := e5
    rw [e6] at hsrc; cases hsrc
    simp only at hpar hfp e4
    rw [e4] at hpar
    rw [List.mem_singleton] at hpar
    subst hpar
    rw [e2, e4] at hfp
    simp only [List.map_cons, List.map_nil, List.mem_singleton] at hfp
    subst hfp
    show Labelled _ _ fd.ms.msgs
    rcases hf.2 with ⟨k1, k2⟩ | k2
    · have hmem : qt ∈ q.topics := List.mem_of_getElem? (mem_zipIdx_get hm)
      rcases settled qt hmem par (by rw [e4]; exact List.mem_singleton.2 rfl) with k3 | k3
      · exact absurd k3 k1
      · have := (C46_kept r2).1 qt.topic par.partition
        rw [k3] at this
        rw [(List.append_eq_nil_iff.1 this.symm).1, k2]
        exact ⟨by simp, by simp⟩
    · rw [hlog]; exact k2
  have both := (List.forall₂_iff_get.1 g2)
  refine List.forall₂_iff_get.2 ⟨both.1, fun i hi hj => ?_⟩
  obtain ⟨k1, k2⟩ := both.2 i hi hj
  refine ⟨k1, ?_⟩
  have k3 := (List.forall₂_iff_get.1 key).2 i hi hj
  have k4 := List.forall₂_iff_get.1 k2
  refine List.forall₂_iff_get.2 ⟨k4.1, fun m hm hm' => ?_⟩
  obtain ⟨l1, l2, l3, _⟩ := k4.2 m hm hm'
  exact ⟨l1, l2, l3, k3 _ (List.get_mem ..) _ (List.get_mem ..)⟩

/-- **C96**, for requests with any number of partitions per topic: there is one moment at which the whole answer is the one of `Spec/Broker.lean`, which says what is answered
with the data as it is (and what becomes of several partitions of one topic, C35). -/
theorem C96_reply_partial {sv : Server} {clock : Int} {k : Nat} {q : FetchRequest} {c : I32} {t1 tr : List SEv} {s1 s2 : Sys}
    (h : Exchange sv clock k (.fetch q) c t1 s1 tr s2)
    (hs : ∀ t p, ∀ r ∈ (s2.view 0).log t p, wireSize r < 2 ^ 31) (hl : (sent (actsOf k tr)).length < 2 ^ 31)
    (settled : ∀ t ∈ q.topics, ∀ p ∈ t.partitions, Settled s1 s2 t.topic p.partition) :
    ∃ x, Client.response Client.fetch (sent (actsOf k tr)) = some ((c, 0, x), []) ∧ Sometime s1 tr s2 fun sm => seen x = fetchReply (data sm) q := by
  obtain ⟨ctx, es, h1, h2, h3⟩ := h.run
  obtain ⟨_, _, _, h0⟩ := h.serves
  obtain ⟨ta, tb, w1, resp, rfl, h4, h5, h6⟩ := fetch_read h1 hs (by rw [h2]; exact hl)
  obtain ⟨fds, h7, tc, td, wm, rfl, h8, h9, h10⟩ := fetch_snapshot h4
  have hn : (effectsOf tr).take (effects tc).length = effects tc := by
    rw [← h3]; simp [effects]
  obtain ⟨t3, t4, sm, e, r1, r2, r3⟩ := sometime_logs h0.during (effects tc).length
  have hlog : ∀ t p, (sm.view 0).log t p = wm.log t p := fun t p => by rw [r3, hn]; exact (h8.log t p).symm
  refine ⟨_, by rw [← h2]; exact h6, t3, t4, sm, e, r1, r2, ?_⟩
  unfold seen fetchReply
  rw [List.map_map]
  refine forall₂_eq_map (f := fun (y : FetchTopic × Nat) => _) ?_
  rw [List.forall₂_map_right_iff]
  refine List.Forall₂.imp ?_ (fetchRespond_eq h7)
  rintro ⟨qt, n⟩ rt ⟨fd, hfd, e1, e2⟩
  obtain ⟨⟨t', par'⟩, hsrc, hf, hf'⟩ := forall₂_get h10 hfd
  have hsrc : (fetchNamed q)[n]? = some (t', par') := hsrc
  have hlab : Labelled par'.fetchOffset.toInt (((sm.view 0).log t' par'.partition).drop par'.fetchOffset.toInt.toNat) fd.ms.msgs := by
    rcases hf' with ⟨k1, k2⟩ | k2
    · obtain ⟨qt', hq', hm'⟩ := List.mem_flatMap.1 (List.mem_of_getElem? hsrc)
      obtain ⟨par, hpar, e3⟩ := List.mem_map.1 hm'
      cases e3
      rcases settled qt' hq' par' hpar with k3 | k3
      · exact absurd k3 k1
      · have := (C46_kept r2).1 qt'.topic par'.partition
        rw [k3] at this
        rw [(List.append_eq_nil_iff.1 this.symm).1, k2]
        exact ⟨by simp, by simp⟩
    · rw [hlog]; exact k2
  have hr : (data sm).records t' par' = ((sm.view 0).log t' par'.partition).drop par'.fetchOffset.toInt.toNat := by
    unfold Data.records; rw [data_log]
  dsimp only [Function.comp] at *
  rw [e1, e2, hsrc, List.map_map, List.map_map]
  refine Prod.ext rfl (List.map_congr_left fun par _ => ?_)
  dsimp only [Function.comp, Option.getD_some]
  unfold Data.messages Data.highWatermark
  rw [hr, ← labelled_eq hlab, ← hlab.1, ← hf]
  rfl

/-! ### The order of posts to different topics -/

theorem labelled_take {start : Int} {a b : List Record} {msgs : List MessageV1} (h : Labelled start (a ++ b) msgs) : Labelled start a (msgs.take a.length) := by
  obtain ⟨h1, h2⟩ := h
  rw [List.length_append] at h1
  refine ⟨by rw [List.length_take]; omega, fun i r m hr hm => ?_⟩
  have hi : i < a.length := (List.getElem?_eq_some_iff.1 hr).1
  rw [List.getElem?_take_of_lt hi] at hm
  exact h2 i r m (by rw [List.getElem?_append_left hi]; exact hr) hm

/-- The answer has all records that the partition had in state `s`, from the requested offset on. -/
def AllOf (s : Sys) (t : Bytes) (par : FetchPartition) (msgs : List MessageV1) : Prop :=
  let recs := ((s.view 0).log t par.partition).drop par.fetchOffset.toInt.toNat
  Labelled par.fetchOffset.toInt recs (msgs.take recs.length)

/-- The answer has only records that the partition had in state `s`. -/
def OnlyOf (s : Sys) (t : Bytes) (par : FetchPartition) (msgs : List MessageV1) : Prop :=
  Labelled par.fetchOffset.toInt ((((s.view 0).log t par.partition).drop par.fetchOffset.toInt.toNat).take msgs.length) msgs

/-- What an answer says of each partition of a Fetch request. -/
def EachPartition (P : Bytes → FetchPartition → List MessageV1 → Prop) (q : FetchRequest) (x : List (Bytes × List Client.FetchedPartition)) : Prop :=
  List.Forall₂ (fun (qt : FetchTopic) (rt : Bytes × List Client.FetchedPartition) => rt.1 = qt.topic ∧
    List.Forall₂ (fun (par : FetchPartition) (fp : Client.FetchedPartition) => fp.partition = par.partition ∧ P qt.topic par fp.messages) qt.partitions rt.2) q.topics x

theorem EachPartition.mono {P Q : Bytes → FetchPartition → List MessageV1 → Prop} {q : FetchRequest} {x : List (Bytes × List Client.FetchedPartition)}
    (h : EachPartition P q x) (hPQ : ∀ t par msgs, P t par msgs → Q t par msgs) : EachPartition Q q x :=
  List.Forall₂.imp (fun _ _ ⟨e, h⟩ => ⟨e, List.Forall₂.imp (fun _ _ ⟨e, h⟩ => ⟨e, hPQ _ _ _ h⟩) h⟩) h

/-- **C97**: take any moment while a Fetch request is served, the moment `sx`. Either the answer has, of every partition, all records that were there at this moment; or it
has, of every partition, only records that were there at this moment. So a record that was posted later is in no answer that lacks, in another topic, a record that was
posted before. With the conditions of `C96_snapshot_partial`; without the last, it is false: `C97_false`. -/
theorem C97_order_partial {sv : Server} {clock : Int} {k : Nat} {q : FetchRequest} {c : I32} {t1 tr : List SEv} {s1 s2 : Sys}
    (h : Exchange sv clock k (.fetch q) c t1 s1 tr s2) (single : ∀ t ∈ q.topics, ∃ p, t.partitions = [p])
    (hs : ∀ t p, ∀ r ∈ (s2.view 0).log t p, wireSize r < 2 ^ 31) (hl : (sent (actsOf k tr)).length < 2 ^ 31)
    (settled : ∀ t ∈ q.topics, ∀ p ∈ t.partitions, Settled s1 s2 t.topic p.partition)
    {tx ty : List SEv} {sx : Sys} (hx : Sys.Run s1 tx sx) (htr : tr = tx ++ ty) :
    ∃ x, Client.response Client.fetch (sent (actsOf k tr)) = some ((c, 0, x), []) ∧
      (EachPartition (AllOf sx) q x ∨ EachPartition (OnlyOf sx) q x) := by
  obtain ⟨x, h1, t3, t4, sm, e, h2, _, h4⟩ := C96_snapshot_partial h single hs hl settled
  refine ⟨x, h1, ?_⟩
  have hm : EachPartition (fun t par msgs => Labelled par.fetchOffset.toInt (((sm.view 0).log t par.partition).drop par.fetchOffset.toInt.toNat) msgs) q x :=
    List.Forall₂.imp (fun _ _ ⟨e, h⟩ => ⟨e, List.Forall₂.imp (fun _ _ ⟨e, _, _, h⟩ => ⟨e, h⟩) h⟩) h4
  rw [htr] at e
  have kx := (C46_kept hx).1
  have km := (C46_kept h2).1
  rcases List.append_eq_append_iff.1 e with ⟨a, rfl, _⟩ | ⟨a, rfl, _⟩
  · refine .inl (hm.mono fun t par msgs hl => ?_)
    have : (sm.view 0).log t par.partition = (sx.view 0).log t par.partition ++ Spec.posts (effectsOf a) t par.partition := by
      rw [km, kx, effectsOf, List.filterMap_append, Spec.posts_append, List.append_assoc]; rfl
    rw [this, List.drop_append] at hl
    exact labelled_take hl
  · refine .inr (hm.mono fun t par msgs hl => ?_)
    have : (sx.view 0).log t par.partition = (sm.view 0).log t par.partition ++ Spec.posts (effectsOf a) t par.partition := by
      rw [km, kx, effectsOf, List.filterMap_append, Spec.posts_append, List.append_assoc]; rfl
    unfold OnlyOf
    rw [this, List.drop_append, hl.1, List.take_left]
    exact hl

/-! ### A partition that comes into being meanwhile -/

/-- A request for the records of two topics. -/
def fetchTopics : FetchRequest := ⟨-1, 100, 1, [⟨[116], [⟨0, 0, 1000⟩]⟩, ⟨[117], [⟨0, 0, 1000⟩]⟩]⟩

theorem fetchTopics_wf : (Request.fetch fetchTopics).WellFormed := by
  unfold fetchTopics Request.WellFormed ShortList ShortStr
  decide

/-- The connection has looked up the two topics; a record is posted to the second topic, then one to the first. -/
def posts21 (n : Nat) : List Pick := List.replicate 5 (.conn 0) ++ caller 1 (.simplePost [117] 0 none (some [4])) n ++ caller 1 (.simplePost [116] 0 none (some [3])) 6

/-- The connection answers. -/
def lateTopic : List Pick := posts21 6 ++ List.replicate 8 (.conn 0)

def lookedUp : Sys := taken 0 (.fetch fetchTopics) 7 oneRecord


/-- The answer: both records of the first topic, none of the second. -/
def lateAnswer : List (Bytes × List Client.FetchedPartition) :=
  ((Client.response Client.fetch (sent (actsOf 0 (eventsOf lateTopic lookedUp)))).map fun y => y.1.2.2).getD []

/-- What is known of two topics with one partition each. -/
theorem EachPartition.two {P : Bytes → FetchPartition → List MessageV1 → Prop} {x : List (Bytes × List Client.FetchedPartition)} (h : EachPartition P fetchTopics x) :
    ∃ m1 m2, x.map (·.2.map (·.messages)) = [[m1], [m2]] ∧ P [116] ⟨0, 0, 1000⟩ m1 ∧ P [117] ⟨0, 0, 1000⟩ m2 := by
  obtain ⟨⟨t1, f1⟩, x1, ⟨_, h1⟩, h2, rfl⟩ := List.forall₂_cons_left_iff.1 h
  obtain ⟨⟨t2, f2⟩, x2, ⟨_, h3⟩, h4, rfl⟩ := List.forall₂_cons_left_iff.1 h2
  cases h4
  obtain ⟨p1, y1, ⟨_, h5⟩, h6, e1⟩ := List.forall₂_cons_left_iff.1 h1
  obtain ⟨p2, y2, ⟨_, h7⟩, h8, e2⟩ := List.forall₂_cons_left_iff.1 h3
  cases h6; cases h8
  simp only at e1 e2
  subst e1 e2
  exact ⟨_, _, rfl, h5, h7⟩

set_option maxRecDepth 100000 in
theorem late_lengths : lateAnswer.map (fun t => t.2.map (·.messages.length)) = [[2], [0]] := by decide +kernel

set_option maxRecDepth 100000 in
theorem late_response : Client.response Client.fetch (sent (actsOf 0 (eventsOf lateTopic lookedUp))) = some ((7, 0, lateAnswer), []) := by
  have : ((Client.response Client.fetch (sent (actsOf 0 (eventsOf lateTopic lookedUp)))).map fun y => (y.1.1, y.1.2.1, y.2)) = some (7, 0, []) := by decide +kernel
  unfold lateAnswer
  cases e : Client.response Client.fetch (sent (actsOf 0 (eventsOf lateTopic lookedUp))) with
  | none => rw [e] at this; cases this
  | some y =>
    rw [e] at this
    obtain ⟨⟨a, b, d⟩, f⟩ := y
    cases this
    rfl

theorem late_two {P : Bytes → FetchPartition → List MessageV1 → Prop} (h : EachPartition P fetchTopics lateAnswer) :
    ∃ m1 m2, m1.length = 2 ∧ m2.length = 0 ∧ P [116] ⟨0, 0, 1000⟩ m1 ∧ P [117] ⟨0, 0, 1000⟩ m2 := by
  obtain ⟨m1, m2, h1, h2, h3⟩ := h.two
  have := late_lengths
  have e : lateAnswer.map (fun t => t.2.map (·.messages.length)) = (lateAnswer.map (·.2.map (·.messages))).map (·.map List.length) := by
    simp [Function.comp_def]
  rw [e, h1] at this
  simp only [List.map_cons, List.map_nil, List.cons.injEq, and_true] at this
  exact ⟨m1, m2, this.1, this.2, h2, h3⟩

set_option maxRecDepth 100000 in
theorem late_exchange : ∃ t1, Exchange ⟨9092, []⟩ 0 0 (.fetch fetchTopics) 7 t1 lookedUp (eventsOf lateTopic lookedUp) (stateAfter lateTopic lookedUp) := by
  obtain ⟨t0, h⟩ := oneRecord_run
  exact ⟨_, exchange_of_picks h 0 lateTopic (.fetch fetchTopics) 7 fetchTopics_wf (by decide +kernel)⟩

set_option maxRecDepth 100000 in
/-- **C96** is false when a topic is created while the request is served: Fetch has looked for the topic and not found it, and does not look again. When a record is then
posted to this topic, and thereafter one to another, the answer has the second but not the first. At no moment were these the records of the two topics. -/
theorem C96_false : ∃ (q : FetchRequest) (t1 tr : List SEv) (s1 s2 : Sys) (x : List (Bytes × List Client.FetchedPartition)),
    (∀ t ∈ q.topics, ∃ p, t.partitions = [p]) ∧ Exchange ⟨9092, []⟩ 0 0 (.fetch q) 7 t1 s1 tr s2 ∧
    Client.response Client.fetch (sent (actsOf 0 tr)) = some ((7, 0, x), []) ∧
    ¬ Sometime s1 tr s2 fun sm => EachPartition (fun t par msgs =>
      Labelled par.fetchOffset.toInt (((sm.view 0).log t par.partition).drop par.fetchOffset.toInt.toNat) msgs) q x := by
  obtain ⟨t1, hx⟩ := late_exchange
  refine ⟨_, t1, _, _, _, lateAnswer, ?_, hx, late_response, ?_⟩
  · intro t ht
    simp only [fetchTopics, List.mem_cons, List.not_mem_nil, or_false] at ht
    rcases ht with rfl | rfl <;> exact ⟨_, rfl⟩
  rintro ⟨ta, tb, sm, e, h1, h2, h3⟩
  have he : effectsOf (eventsOf lateTopic lookedUp) = [.post [117] 0 ⟨0, 0, none, some [4], []⟩, .post [116] 0 ⟨0, 0, none, some [3], []⟩] := by rfl
  have l1 : ((lookedUp).view 0).log [116] 0 = [⟨0, 0, none, some [1, 2], []⟩] := by rfl
  have l2 : ((lookedUp).view 0).log [117] 0 = [] := by rfl
  rw [e] at he
  obtain ⟨m1, m2, n1, n2, ⟨g1, _⟩, ⟨g2, _⟩⟩ := late_two h3
  have k1 := (C46_kept h1).1 [116] 0
  have k2 := (C46_kept h1).1 [117] 0
  simp only [show ((0 : I64).toInt.toNat) = 0 from rfl, List.drop_zero] at g1 g2
  rw [k1, l1, n1] at g1
  rw [k2, l2, n2] at g2
  unfold effectsOf at he g1 g2
  rw [List.filterMap_append] at he
  generalize List.filterMap _ ta = a at he g1 g2
  generalize List.filterMap _ tb = b at he
  clear e h1 h2 h3 k1 k2 hx
  rcases a with _ | ⟨a1, _ | ⟨a2, a⟩⟩
  · simp [Spec.posts] at g1
  · simp only [List.cons_append, List.cons.injEq] at he
    rw [he.1] at g2
    simp [Spec.posts] at g2
  · simp only [List.cons_append, List.cons.injEq] at he
    rw [he.1] at g2
    simp [Spec.posts] at g2

set_option maxRecDepth 100000 in
/-- **C97** is false when a topic is created while the request is served: at the moment between the two posts there is a record in the second topic that the answer lacks; and
the answer has a record of the first topic that was not there. -/
theorem C97_false : ∃ (q : FetchRequest) (t1 tx ty : List SEv) (s1 sx s2 : Sys) (x : List (Bytes × List Client.FetchedPartition)),
    (∀ t ∈ q.topics, ∃ p, t.partitions = [p]) ∧ Exchange ⟨9092, []⟩ 0 0 (.fetch q) 7 t1 s1 (tx ++ ty) s2 ∧ Sys.Run s1 tx sx ∧ Sys.Run sx ty s2 ∧
    Client.response Client.fetch (sent (actsOf 0 (tx ++ ty))) = some ((7, 0, x), []) ∧
    ¬ EachPartition (AllOf sx) q x ∧ ¬ EachPartition (OnlyOf sx) q x := by
  obtain ⟨t1, hx⟩ := late_exchange
  obtain ⟨_, _, _, h0⟩ := hx.serves
  have hr := h0.during
  have he : effectsOf (eventsOf lateTopic lookedUp) = [.post [117] 0 ⟨0, 0, none, some [4], []⟩, .post [116] 0 ⟨0, 0, none, some [3], []⟩] := by rfl
  have l1 : ((lookedUp).view 0).log [116] 0 = [⟨0, 0, none, some [1, 2], []⟩] := by rfl
  have l2 : ((lookedUp).view 0).log [117] 0 = [] := by rfl
  have hresp := late_response
  obtain ⟨ta, tb, sm, e, r1, r2, r3⟩ := sometime_logs hr 1
  rw [e] at hx hresp
  have k1 := r3 [116] 0
  have k2 := r3 [117] 0
  rw [he] at k1 k2
  simp only [List.take_succ_cons, List.take_zero] at k1 k2
  rw [l1] at k1
  rw [l2] at k2
  refine ⟨_, t1, ta, tb, _, sm, _, lateAnswer, ?_, hx, r1, r2, hresp, ?_, ?_⟩
  · intro t ht
    simp only [fetchTopics, List.mem_cons, List.not_mem_nil, or_false] at ht
    rcases ht with rfl | rfl <;> exact ⟨_, rfl⟩
  · intro h
    obtain ⟨m1, m2, n1, n2, _, ⟨g2, _⟩⟩ := late_two h
    simp only [show ((0 : I64).toInt.toNat) = 0 from rfl, List.drop_zero, List.length_take, n2, k2] at g2
    simp [Spec.posts] at g2
  · intro h
    obtain ⟨m1, m2, n1, n2, ⟨g1, _⟩, _⟩ := late_two h
    simp only [show ((0 : I64).toInt.toNat) = 0 from rfl, List.drop_zero, List.length_take, n1, k1] at g1
    simp [Spec.posts] at g1

/-! ### Example -/

/-- Both topics are there; during the Fetch a record is posted to the first topic, then one to the second: the schedule of `C73_false`. -/
def bothThere : List Pick := List.replicate 5 (.conn 0) ++ caller 1 (.simplePost [116] 0 none (some [3])) 6 ++ caller 1 (.simplePost [117] 0 none (some [4])) 6 ++
  List.replicate 12 (.conn 0)

def oneLooked : Sys := taken 0 (.fetch fetchTopics) 7 createdState

set_option maxRecDepth 100000 in
set_option synthInstance.maxSize 1000 in
/-- The hypotheses of `C96_snapshot_partial` and `C97_order_partial`: both posts are made while the request is served, and both records are in the answer. -/
example : (∃ t1, Exchange ⟨9092, []⟩ 0 0 (.fetch fetchTopics) 7 t1 oneLooked (eventsOf bothThere oneLooked) (stateAfter bothThere oneLooked)) ∧
    (∀ t ∈ fetchTopics.topics, ∀ p ∈ t.partitions, Settled oneLooked (stateAfter bothThere oneLooked) t.topic p.partition) ∧
    ((Client.response Client.fetch (sent (actsOf 0 (eventsOf bothThere oneLooked)))).map fun x =>
      x.1.2.2.map fun t => t.2.map fun p => (p.partition, p.highWatermark, p.messages.map (·.value))) =
        some [[(0, 2, [some [1, 2], some [3]])], [(0, 1, [some [4]])]] := by
  obtain ⟨t0, h⟩ := called_run 4 creating _ rfl
  refine ⟨⟨_, exchange_of_picks h 0 bothThere (.fetch fetchTopics) 7 fetchTopics_wf (by decide +kernel)⟩, ?_, by decide +kernel⟩
  intro t ht p hp
  simp only [fetchTopics, List.mem_cons, List.not_mem_nil, or_false] at ht
  rcases ht with rfl | rfl <;> (simp only [List.mem_cons, List.not_mem_nil, or_false] at hp; subst hp; exact .inl (by rfl))

end KM.Props
