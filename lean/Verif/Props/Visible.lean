import Verif.Props.Wire
/-
C60: what a call has returned from, or a request has been answered for, is seen by every request taken up later, on whatever connection.
-/
namespace KM.Props
open KM Spec

/-- Caller `i` calls `c` in state `s0`, and is about to return from it in state `s2`; `tr` is what happens in between, everywhere in the mock. -/
structure CallRun (s0 : Sys) (i : Nat) (c : Call) (tr : List SEv) (s2 : Sys) : Prop where
  idle : s0.api i = .idle
  run : ∃ s1, Sys.Step s0 (.life (.api i c)) s1 ∧ Sys.Run s1 tr s2
  inside : ∀ c', SEv.life (.api i c') ∉ tr
  returns : s2.api i = .call (.ret ())

/-- The call executes its program. -/
theorem CallRun.exec {s0 s2 : Sys} {i : Nat} {c : Call} {tr : List SEv} (h : CallRun s0 i c tr s2) {p : Prog Unit} (hp : c.entry = .call p) :
    ∃ s1 es, s1.ds = s0.ds ∧ Sys.Run s1 tr s2 ∧ Exec (s1.view 0) p es (s2.view 0) (.ret ()) ∧ own es = callsOf i tr ∧ effects es = effectsOf tr := by
  obtain ⟨s1, h1, h2⟩ := h.run
  obtain ⟨hd, hapi⟩ : s1.ds = s0.ds ∧ s1.api i = .call p := by
    cases h1 with
    | life hn =>
      obtain ⟨_, h3, _, _⟩ := next_data hn
      refine ⟨h3, ?_⟩
      rcases apiStep_self hn with ⟨_, h3⟩ | ⟨h3, _⟩
      · rw [h3, hp]
      · exact absurd h.idle h3
  rcases h2.call hapi (Call.noCancel hp) with ⟨p', es, h3, h4, h5, h6⟩ | ⟨t1, t2, sa, e, sb, es, h3, _, h5, h6, h7, _⟩
  · rw [h.returns] at h3; cases h3
    exact ⟨s1, es, hd, h2, h4, h5, h6⟩
  · obtain ⟨c', rfl⟩ := step_returns h6 h5 h7
    exact absurd (by rw [h3]; simp) (h.inside c')

/-- **C60**, posts: when SimplePost or ExtendedPost has returned, its record has an offset `pos`, and every Fetch request taken up afterwards, on any connection,
that asks for the partition from an offset not after `pos` and is answered, is answered with the record: with key, value and timestamp as posted, labelled
with `pos`. Missing for the full statement: requests that name several partitions of one topic, for which it is false, `C60_false`. -/
theorem C60_posts_partial {sa sb : Sys} {i : Nat} {call : PostCall} {tc : List SEv} (hcall : CallRun sa i call.call tc sb) :
    ∃ (pos : Nat) (r : Record), call.Matches sa.clock sb.clock r ∧ ((sa.view 0).log call.topic (BitVec.ofInt 32 call.partition)).length ≤ pos ∧
      ((sb.view 0).log call.topic (BitVec.ofInt 32 call.partition))[pos]? = some r ∧
      ∀ {tm t1 tr : List SEv} {s1 s2 : Sys} {sv : Server} {clock : Int} {k : Nat} {q : FetchRequest} {c : I32}, Sys.Run sb tm s1 →
        Exchange sv clock k (.fetch q) c t1 s1 tr s2 → (∀ t ∈ q.topics, ∃ p, t.partitions = [p]) →
        (∀ t p, ∀ r ∈ (s2.view 0).log t p, wireSize r < 2 ^ 31) → (sent (actsOf k tr)).length < 2 ^ 31 →
        ∃ x, Client.response Client.fetch (sent (actsOf k tr)) = some ((c, 0, x), []) ∧
          List.Forall₂ (fun (qt : FetchTopic) (rt : Bytes × List Client.FetchedPartition) => rt.1 = qt.topic ∧
            List.Forall₂ (fun (par : FetchPartition) (fp : Client.FetchedPartition) => fp.partition = par.partition ∧
              (qt.topic = call.topic → par.partition = BitVec.ofInt 32 call.partition → 0 ≤ par.fetchOffset.toInt → par.fetchOffset.toInt ≤ pos →
                ∃ m, fp.messages[pos - par.fetchOffset.toInt.toNat]? = some m ∧ m.offset = BitVec.ofNat 64 pos ∧ m.timestamp = r.timestamp ∧
                  m.key = call.key ∧ m.value = call.value))
              qt.partitions rt.2) q.topics x := by
  obtain ⟨sx, hc, hrun⟩ := hcall.run
  obtain ⟨ta, tb, r, e1, _, _, e2, e3⟩ := C57_post_takes_effect hc hcall.idle hrun hcall.inside hcall.returns
  refine ⟨((sa.view 0).log call.topic (BitVec.ofInt 32 call.partition) ++ Spec.posts (effectsOf ta) call.topic (BitVec.ofInt 32 call.partition)).length, r, e2,
    by simp, by rw [e3, List.getElem?_append_right (Nat.le_refl _)]; simp, ?_⟩
  intro tm t1 tr s1 s2 sv clock k q c hm hx single hs hl
  generalize hpos : ((sa.view 0).log call.topic (BitVec.ofInt 32 call.partition) ++
    Spec.posts (effectsOf ta) call.topic (BitVec.ofInt 32 call.partition)).length = pos at *
  obtain ⟨x, g1, g2⟩ := C59_fetch_partial hx single hs hl
  refine ⟨x, g1, List.Forall₂.imp ?_ g2⟩
  rintro qt rt ⟨g3, g4⟩
  refine ⟨g3, List.Forall₂.imp ?_ g4⟩
  rintro par fp ⟨g5, _, n, n1, n2, n3, _, _⟩
  refine ⟨g5, ?_⟩
  rintro ht hp h0 hle
  rw [ht, hp] at n1 n2 n3
  have l1 := (C46_kept hm).1 call.topic (BitVec.ofInt 32 call.partition)
  obtain ⟨_, _, _, hsv⟩ := hx.serves
  have l2 := (C46_kept hsv.during).1 call.topic (BitVec.ofInt 32 call.partition)
  have hlt : pos < ((sb.view 0).log call.topic (BitVec.ofInt 32 call.partition)).length := by
    rw [e3, List.length_append, hpos]; simp
  have hr : ((s2.view 0).log call.topic (BitVec.ofInt 32 call.partition))[pos]? = some r := by
    rw [l2, l1, List.append_assoc, List.getElem?_append_left hlt, e3, List.getElem?_append_right (by omega), hpos]; simp
  have hn : pos < n := by
    rw [l1, List.length_append] at n1; omega
  have hget : ((((s2.view 0).log call.topic (BitVec.ofInt 32 call.partition)).take n).drop par.fetchOffset.toInt.toNat)[pos - par.fetchOffset.toInt.toNat]? = some r := by
    rw [List.getElem?_drop, show par.fetchOffset.toInt.toNat + (pos - par.fetchOffset.toInt.toNat) = pos by omega, List.getElem?_take_of_lt hn, hr]
  have hlen := (List.getElem?_eq_some_iff.1 hget).1
  rw [← n3.1] at hlen
  refine ⟨fp.messages[pos - par.fetchOffset.toInt.toNat], List.getElem?_eq_getElem hlen, ?_⟩
  obtain ⟨m1, m2, m3, m4, _⟩ := n3.2 _ _ _ hget (List.getElem?_eq_getElem hlen)
  refine ⟨?_, m2, by rw [m3, e2.2.1], by rw [m4, e2.2.2.1]⟩
  rw [m1, show par.fetchOffset.toInt + ((pos - par.fetchOffset.toInt.toNat : Nat) : Int) = (pos : Int) by omega, BitVec.ofInt_natCast]

/-- **C60**, the end of the log: when SimplePost or ExtendedPost has returned, every ListOffsets request taken up afterwards that asks for the latest offset of
the partition is told an offset after that of the record (the length of the log when the call returned is more than the record's offset, `C60_posts_partial`). -/
theorem C60_latest {sa sb : Sys} {i : Nat} {call : PostCall} {tc : List SEv} (hcall : CallRun sa i call.call tc sb)
    {tm t1 tr : List SEv} {s1 s2 : Sys} {sv : Server} {clock : Int} {k : Nat} {q : ListOffsetsRequest} {c : I32} (hm : Sys.Run sb tm s1)
    (hx : Exchange sv clock k (.listOffsets q) c t1 s1 tr s2) :
    ∃ x, Client.response Client.listOffsets (sent (actsOf k tr)) = some ((c, x), []) ∧
      List.Forall₂ (fun (qt : ListOffsetsTopic) (rt : ListOffsetsRespTopic) => rt.name = qt.name ∧
        List.Forall₂ (fun (qp : ListOffsetsPartition) (rp : ListOffsetsRespPartition) => rp.partitionIndex = qp.partitionIndex ∧
          (qt.name = call.topic → qp.partitionIndex = BitVec.ofInt 32 call.partition → qp.timestamp.toInt = -1 →
            rp.errorCode = 0 ∧ ∃ n, rp.offset = BitVec.ofNat 64 n ∧ ((sb.view 0).log call.topic (BitVec.ofInt 32 call.partition)).length ≤ n ∧
              n ≤ ((s2.view 0).log call.topic (BitVec.ofInt 32 call.partition)).length)) qt.partitions rt.partitions) q.topics x.topics := by
  obtain ⟨sx, hc, hrun⟩ := hcall.run
  obtain ⟨ta, tb, r, e1, _, _, e2, e3⟩ := C57_post_takes_effect hc hcall.idle hrun hcall.inside hcall.returns
  have l1 := (C46_kept hm).1 call.topic (BitVec.ofInt 32 call.partition)
  obtain ⟨x, g1, g2⟩ := C59_list_offsets hx
  refine ⟨x, g1, List.Forall₂.imp ?_ g2⟩
  rintro qt rt ⟨g3, g4⟩
  refine ⟨g3, List.Forall₂.imp ?_ g4⟩
  rintro qp rp ⟨g5, g6⟩
  refine ⟨g5, ?_⟩
  rintro ht hp hts
  rw [ht, hp] at g6
  have hlen : ((sb.view 0).log call.topic (BitVec.ofInt 32 call.partition)).length ≤ ((s1.view 0).log call.topic (BitVec.ofInt 32 call.partition)).length := by
    rw [l1, List.length_append]; omega
  rcases g6 with ⟨_, g6⟩ | ⟨g6, _, n, n1, n2, n3, _⟩
  · rw [log_missing g6, e3] at hlen; simp at hlen
  · exact ⟨g6, n, n3 hts, by omega, n2⟩

/-- **C60**, commits: when an OffsetCommit was answered for a partition without error, every OffsetFetch request of the same group taken up afterwards, on any
connection, that asks for the partition is answered with an entry for it, and with an offset of at least the committed one, unless the offset is reset by
SetConsumerGroupOffset meanwhile. -/
theorem C60_commits {sv sv' : Server} {clock clock' : Int} {k k' : Nat} {q : CommitRequest} {q' : OffsetFetchRequest} {c c' : I32} {t1 t1' tr tm tr' : List SEv}
    {s1 s2 s3 s4 : Sys} (h : Exchange sv clock k (.offsetCommit q) c t1 s1 tr s2) (hm : Sys.Run s2 tm s3)
    (h' : Exchange sv' clock' k' (.offsetFetch q') c' t1' s3 tr' s4) (hg : q'.groupId = q.groupId) :
    ∃ x x', Client.response Client.commit (sent (actsOf k tr)) = some ((c, x), []) ∧
      Client.response Client.offsetFetch (sent (actsOf k' tr')) = some ((c', x'), []) ∧
      List.Forall₂ (fun (qt : CommitTopic) (rt : CommitRespTopic) => rt.name = qt.name ∧
        List.Forall₂ (fun (qp : CommitPartition) (rp : CommitRespPartition) => rp.partitionIndex = qp.partitionIndex ∧
          (rp.errorCode = 0 → (∀ o, .reset qt.name qp.partitionIndex q.groupId o ∉ effectsOf (tr ++ tm ++ tr')) →
            (∃ y ∈ q'.topics, y.name = qt.name ∧ qp.partitionIndex ∈ y.partitionIndexes) →
            (∃ y ∈ x'.topics, y.name = qt.name ∧ ∃ z ∈ y.partitions, z.partitionIndex = qp.partitionIndex) ∧
            ∀ y ∈ x'.topics, y.name = qt.name → ∀ z ∈ y.partitions, z.partitionIndex = qp.partitionIndex →
              qp.committedOffset.toInt ≤ z.committedOffset.toInt)) qt.partitions rt.partitions) q.topics x.topics := by
  obtain ⟨x, g1, g2⟩ := C59_commit h
  obtain ⟨x', g3, _, g4, g5⟩ := C59_offset_fetch h'
  obtain ⟨_, kc, _, kp⟩ := C46_kept hm
  refine ⟨x, x', g1, g3, List.Forall₂.imp ?_ g2⟩
  rintro qt rt ⟨g6, g7⟩
  refine ⟨g6, List.Forall₂.imp ?_ g7⟩
  rintro qp rp ⟨g8, g9⟩
  refine ⟨g8, fun he hn ha => ?_⟩
  rcases g9 with ⟨g9, _⟩ | ⟨_, g10, g11⟩
  · rw [he] at g9; cases g9
  rw [effectsOf_append, effectsOf_append] at hn
  have g11 := g11 fun o ho => hn o (List.mem_append_left _ (List.mem_append_left _ ho))
  have h3 : qp.committedOffset.toInt ≤ ((s3.view 0).committed qt.name qp.partitionIndex q.groupId).toInt := by
    refine Int.le_trans g11 ?_
    rw [kc]
    exact committedFrom_le (fun o ho => hn o (List.mem_append_left _ (List.mem_append_right _ ho))) _
  constructor
  · obtain ⟨y, hy, hyn, hyp⟩ := ha
    obtain ⟨rt', r1, r2, r3⟩ := g4 y hy _ hyp (by rw [hyn]; exact kp _ _ g10)
    exact ⟨rt', r1, r2.trans hyn, r3⟩
  · intro y hy hyn z hz hzp
    obtain ⟨_, _, _, n, hn'⟩ := g5 y hy z hz
    rw [hn', hyn, hzp, hg]
    exact Int.le_trans h3 (committedFrom_le (fun o ho => hn o (List.mem_append_right _ (List.mem_of_mem_take ho))) _)

/-- A history in which nobody commits an offset of the group in the partition, and nobody sets it to anything but `o`. -/
def OnlySet (h : List Eff) (t : Bytes) (p : I32) (g : Bytes) (o : Int) : Prop :=
  (∀ o', .commit t p g o' ∉ h) ∧ ∀ o', .reset t p g o' ∈ h → o' = o

theorem OnlySet.tail {e : Eff} {h : List Eff} {t : Bytes} {p : I32} {g : Bytes} {o : Int} (hq : OnlySet (e :: h) t p g o) : OnlySet h t p g o :=
  ⟨fun o' hm => hq.1 o' (List.mem_cons_of_mem _ hm), fun o' hm => hq.2 o' (List.mem_cons_of_mem _ hm)⟩

theorem OnlySet.sub {h h' : List Eff} {t : Bytes} {p : I32} {g : Bytes} {o : Int} (hq : OnlySet h t p g o) (hs : ∀ e ∈ h', e ∈ h) : OnlySet h' t p g o :=
  ⟨fun o' hm => hq.1 o' (hs _ hm), fun o' hm => hq.2 o' (hs _ hm)⟩

theorem OnlySet.committedFrom {h : List Eff} {t : Bytes} {p : I32} {g : Bytes} {o : Int} (hq : OnlySet h t p g o) : Spec.committedFrom o h t p g = o := by
  induction h with
  | nil => rfl
  | cons e h ih =>
    have ih := ih hq.tail
    cases e with
    | post => exact ih
    | commit t' p' g' o' =>
      simp only [Spec.committedFrom]
      rw [if_neg]
      · exact ih
      · rintro ⟨rfl, rfl, rfl⟩
        exact hq.1 o' List.mem_cons_self
    | reset t' p' g' o' =>
      simp only [Spec.committedFrom]
      split
      · next hc =>
        obtain ⟨rfl, rfl, rfl⟩ := hc
        rw [hq.2 o' List.mem_cons_self]
        exact ih
      · exact ih

/-- **C60**, resets: when SetConsumerGroupOffset has returned for a partition that existed when it was called, every OffsetFetch request of the group taken up
afterwards, on any connection, that asks for the partition is answered with an entry for it, and with exactly the given offset, unless a commit or a
different reset of the same offset happens meanwhile. -/
theorem C60_resets {sa sb : Sys} {i : Nat} {topic : Bytes} {n : Int} {group : Bytes} {o : I64} {tc : List SEv}
    (hcall : CallRun sa i (.setConsumerGroupOffset topic n group o) tc sb) (hex : (sa.view 0).hasPartition topic (BitVec.ofInt 32 n))
    {tm t1 tr : List SEv} {s1 s2 : Sys} {sv : Server} {clock : Int} {k : Nat} {q : OffsetFetchRequest} {c : I32} (hm : Sys.Run sb tm s1)
    (hx : Exchange sv clock k (.offsetFetch q) c t1 s1 tr s2) (hg : q.groupId = group)
    (hq : OnlySet (effectsOf (tc ++ tm ++ tr)) topic (BitVec.ofInt 32 n) group o.toInt)
    (ha : ∃ y ∈ q.topics, y.name = topic ∧ BitVec.ofInt 32 n ∈ y.partitionIndexes) :
    ∃ x, Client.response Client.offsetFetch (sent (actsOf k tr)) = some ((c, x), []) ∧
      (∃ y ∈ x.topics, y.name = topic ∧ ∃ z ∈ y.partitions, z.partitionIndex = BitVec.ofInt 32 n) ∧
      ∀ y ∈ x.topics, y.name = topic → ∀ z ∈ y.partitions, z.partitionIndex = BitVec.ofInt 32 n → z.committedOffset = o := by
  obtain ⟨sx, es, e1, e2, e3, _, e5⟩ := hcall.exec rfl
  have hex : (sx.view 0).hasPartition topic (BitVec.ofInt 32 n) := by
    have : (sx.view 0).ds = (sa.view 0).ds := e1
    unfold World.hasPartition at *
    rw [this]; exact hex
  obtain ⟨⟨ta, tb, rfl, _, h1⟩, _⟩ := C28_reset_exact e3 hex
  obtain ⟨_, kc, _, kp⟩ := C46_kept hm
  obtain ⟨x, g3, _, g4, g5⟩ := C59_offset_fetch hx
  rw [effectsOf_append, effectsOf_append, ← e5, effects_append] at hq
  rw [OnlySet.committedFrom (hq.sub fun e he => by simp [he])] at h1
  have h2 : ((s1.view 0).committed topic (BitVec.ofInt 32 n) group).toInt = o.toInt := by
    rw [kc]
    exact (congrArg (fun v => Spec.committedFrom v (effectsOf tm) topic (BitVec.ofInt 32 n) group) h1).trans
      (OnlySet.committedFrom (hq.sub fun e he => by simp [he]))
  refine ⟨x, g3, ?_, ?_⟩
  · obtain ⟨y, hy, rfl, hyp⟩ := ha
    obtain ⟨rt', r1, r2, r3⟩ := g4 y hy _ hyp (kp _ _ (e3.steps.hasPartition hex))
    exact ⟨rt', r1, r2, r3⟩
  · intro y hy hyn z hz hzp
    obtain ⟨_, _, _, m, hn'⟩ := g5 y hy z hz
    rw [hyn, hzp, hg, h2] at hn'
    rw [OnlySet.committedFrom (hq.sub fun e he => by simp [List.mem_of_mem_take he])] at hn'
    exact BitVec.eq_of_toInt_eq hn'

/-- **C60**, created topics: when CreatePartitionTopics has returned, every member that joins afterwards, on any connection, is assigned the partition of each
of the given topics, and every ListOffsets request for them is answered without error. -/
theorem C60_created {sa sb : Sys} {i : Nat} {n : Int} {topics : List Bytes} {tc : List SEv} (hcall : CallRun sa i (.createPartitionTopics n topics) tc sb)
    {tm t1 tr : List SEv} {s1 s2 : Sys} {sv : Server} {clock : Int} {k : Nat} {c : I32} (hm : Sys.Run sb tm s1) :
    (∀ {g m : Bytes} {gen : I32}, Exchange sv clock k (.syncGroup g gen m []) c t1 s1 tr s2 → (∀ t, (s2.view 0).hasTopic t → ShortStr t) →
      (sent (actsOf k tr)).length < 2 ^ 31 →
      ∃ ts, Client.response Client.syncGroup (sent (actsOf k tr)) = some ((c, 0, 1, ts, none), []) ∧
        ∀ t ∈ topics, ∃ ps, (t, ps) ∈ ts ∧ BitVec.ofInt 32 n ∈ ps) ∧
    ∀ {q : ListOffsetsRequest}, Exchange sv clock k (.listOffsets q) c t1 s1 tr s2 →
      ∃ x, Client.response Client.listOffsets (sent (actsOf k tr)) = some ((c, x), []) ∧
        List.Forall₂ (fun (qt : ListOffsetsTopic) (rt : ListOffsetsRespTopic) => rt.name = qt.name ∧
          List.Forall₂ (fun (qp : ListOffsetsPartition) (rp : ListOffsetsRespPartition) => rp.partitionIndex = qp.partitionIndex ∧
            (qt.name ∈ topics → qp.partitionIndex = BitVec.ofInt 32 n → rp.errorCode = 0)) qt.partitions rt.partitions) q.topics x.topics := by
  obtain ⟨sx, es, e1, e2, e3, _, e5⟩ := hcall.exec rfl
  obtain ⟨_, _, _, _, h1, _⟩ := C19_create_keeps_everything e3
  obtain ⟨_, kc, _, kp⟩ := C46_kept hm
  have h2 : ∀ t ∈ topics, (s1.view 0).hasPartition t (BitVec.ofInt 32 n) := fun t ht => kp _ _ (h1 rfl t ht)
  constructor
  · intro g m gen hx hnames hl
    obtain ⟨ts, h3, h4⟩ := C59_sync_group hx hnames hl
    refine ⟨ts, h3, fun t ht => ?_⟩
    obtain ⟨y, hy, rfl⟩ := List.mem_map.1 (h4.topics t (h2 t ht).hasTopic)
    exact ⟨y.2, hy, h4.parts y hy _ (h2 _ ht)⟩
  · intro q hx
    obtain ⟨x, g1, g2⟩ := C59_list_offsets hx
    refine ⟨x, g1, List.Forall₂.imp ?_ g2⟩
    rintro qt rt ⟨g3, g4⟩
    refine ⟨g3, List.Forall₂.imp ?_ g4⟩
    rintro qp rp ⟨g5, g6⟩
    refine ⟨g5, fun ht hp => ?_⟩
    rcases g6 with ⟨_, g6⟩ | ⟨g6, _⟩
    · rw [hp] at g6; exact absurd (h2 _ ht) g6
    · exact g6

/-! ### Examples -/

/-- A call by caller `i`, made in the state after some schedule: it is about to return after `n` steps. -/
theorem callRun_of_play {s : Sys} (i n : Nat) (c : Call) (p : Prog Unit) (hp : c.entry = .call p) (hi : s.api i = .idle)
    (h : ((eventsOf (caller i c n) (s.setApi i (.call p))).all fun e => (match e with
      | .life (.api j _) => j != i
      | _ => true)) = true) (hr : (stateAfter (caller i c n) (s.setApi i (.call p))).api i = .call (.ret ())) :
    CallRun s i c (eventsOf (caller i c n) (s.setApi i (.call p))) (stateAfter (caller i c n) (s.setApi i (.call p))) := by
  refine ⟨hi, ⟨s.setApi i (.call p), .life ?_, stateAfter_run _ _⟩, ?_, hr⟩
  · simp only [Sys.next, Sys.apiStep, hi, hp]
  · intro c' hm
    have := List.all_eq_true.1 h _ hm
    simp at this

theorem taken_run (k : Nat) (req : Request) (c : I32) (s : Sys) : ∃ tm, Sys.Run s tm (taken k req c s) :=
  ⟨_, (stateAfter_run (asks k req c) s).append (stateAfter_run [.conn k] _)⟩

/-- In the mock with one record and one connection a call is made; the state in which it is about to return, and what happened. -/
def called (n : Nat) (c : Call) (p : Prog Unit) : Sys := stateAfter (caller 0 c n) (oneRecord.setApi 0 (.call p))
def calls (n : Nat) (c : Call) (p : Prog Unit) : List SEv := eventsOf (caller 0 c n) (oneRecord.setApi 0 (.call p))

theorem called_run (n : Nat) (c : Call) (p : Prog Unit) (hp : c.entry = .call p) : ∃ t0, Sys.Run (Sys.new ⟨9092, []⟩ 0) t0 (called n c p) := by
  obtain ⟨t0, h⟩ := oneRecord_run
  have hi : oneRecord.api 0 = .idle := rfl
  have hn : Sys.Step oneRecord (.life (.api 0 c)) (oneRecord.setApi 0 (.call p)) := .life (by simp only [Sys.next, Sys.apiStep, hi, hp])
  exact ⟨_, h.append (.cons hn (stateAfter_run _ _))⟩

/-- The post of a second record. -/
def posting : PostCall := ⟨[116], 0, none, some [3], none⟩
def postedState : Sys := called 4 posting.call (simplePost [116] 0 none (some [3]))

theorem posting_run : CallRun oneRecord 0 posting.call (calls 4 posting.call (simplePost [116] 0 none (some [3]))) postedState :=
  callRun_of_play 0 4 _ _ rfl rfl (by decide +kernel) rfl

set_option synthInstance.maxSize 1000 in
/-- The hypotheses of `C60_posts_partial`: a second record is posted, then both are fetched. -/
example : CallRun oneRecord 0 posting.call (calls 4 posting.call (simplePost [116] 0 none (some [3]))) postedState ∧
    (∃ tm, Sys.Run postedState tm (taken 0 askFetch 7 postedState)) ∧
    (∃ t1, Exchange ⟨9092, []⟩ 0 0 askFetch 7 t1 (taken 0 askFetch 7 postedState) (during 0 12 askFetch 7 postedState) (answered 0 12 askFetch 7 postedState)) ∧
    ((Client.response Client.fetch (sent (actsOf 0 (during 0 12 askFetch 7 postedState)))).map fun x =>
      x.1.2.2.map fun t => t.2.map fun p => (p.partition, p.highWatermark, p.messages.map (·.value))) = some [[(0, 2, [some [1, 2], some [3]])]] := by
  obtain ⟨t0, h⟩ := called_run 4 posting.call _ rfl
  exact ⟨posting_run, taken_run .., ⟨_, exchange_of_play h 0 12 askFetch 7 askFetch_wf (by decide +kernel)⟩, by decide +kernel⟩

/-- The hypotheses of `C60_latest`. -/
example : (∃ t1, Exchange ⟨9092, []⟩ 0 0 askLatest 7 t1 (taken 0 askLatest 7 postedState) (during 0 8 askLatest 7 postedState) (answered 0 8 askLatest 7 postedState)) ∧
    ((Client.response Client.listOffsets (sent (actsOf 0 (during 0 8 askLatest 7 postedState)))).map fun x =>
      x.1.2.topics.map fun t => (t.name, t.partitions.map fun p => (p.partitionIndex, p.errorCode, p.offset))) = some [([116], [(0, 0, 2), (5, 3, 0)])] := by
  obtain ⟨t0, h⟩ := called_run 4 posting.call _ rfl
  exact ⟨⟨_, exchange_of_play h 0 8 askLatest 7 askLatest_wf (by decide +kernel)⟩, by decide +kernel⟩

/-- The state in which a commit has been answered. -/
def committedState : Sys := stateAfter [.conn 0] (answered 0 7 askCommit 7 oneRecord)

/-- The hypotheses of `C60_commits`: a commit, then a request for the group's offset. -/
example : (∃ t1, Exchange ⟨9092, []⟩ 0 0 askCommit 7 t1 (taken 0 askCommit 7 oneRecord) (during 0 7 askCommit 7 oneRecord) (answered 0 7 askCommit 7 oneRecord)) ∧
    (∃ tm, Sys.Run (answered 0 7 askCommit 7 oneRecord) tm (taken 0 askOffset 8 committedState)) ∧
    (∃ t1, Exchange ⟨9092, []⟩ 0 0 askOffset 8 t1 (taken 0 askOffset 8 committedState) (during 0 9 askOffset 8 committedState) (answered 0 9 askOffset 8 committedState)) ∧
    ((Client.response Client.offsetFetch (sent (actsOf 0 (during 0 9 askOffset 8 committedState)))).map fun x =>
      x.1.2.topics.map fun t => (t.name, t.partitions.map fun p => (p.partitionIndex, p.committedOffset))) = some [([116], [(0, 1)])] := by
  obtain ⟨t0, h⟩ := oneRecord_run
  have h1 := exchange_of_play h 0 7 askCommit 7 askCommit_wf (by decide +kernel)
  have h2 : Sys.Run (answered 0 7 askCommit 7 oneRecord) _ committedState := stateAfter_run _ _
  obtain ⟨tm, h3⟩ := taken_run 0 askOffset 8 committedState
  obtain ⟨ta, h4⟩ := taken_run 0 askCommit 7 oneRecord
  have h5 : Sys.Run (taken 0 askCommit 7 oneRecord) _ (answered 0 7 askCommit 7 oneRecord) := stateAfter_run _ _
  exact ⟨⟨_, h1⟩, ⟨_, h2.append h3⟩, ⟨_, exchange_of_play (((h.append h4).append h5).append h2) 0 9 askOffset 8 askOffset_wf (by decide +kernel)⟩, by decide +kernel⟩

def resetting : Call := .setConsumerGroupOffset [116] 0 [103] 9
def resetState : Sys := called 3 resetting (setConsumerGroupOffset [116] 0 [103] 9)

set_option maxRecDepth 100000 in
/-- The hypotheses of `C60_resets`: the offset is set to 9, then asked for. -/
example : CallRun oneRecord 0 resetting (calls 3 resetting (setConsumerGroupOffset [116] 0 [103] 9)) resetState ∧ (oneRecord.view 0).hasPartition [116] 0 ∧
    (∃ t1, Exchange ⟨9092, []⟩ 0 0 askOffset 7 t1 (taken 0 askOffset 7 resetState) (during 0 9 askOffset 7 resetState) (answered 0 9 askOffset 7 resetState)) ∧
    effectsOf (calls 3 resetting (setConsumerGroupOffset [116] 0 [103] 9)) = [.reset [116] 0 [103] 9] ∧ effectsOf (during 0 9 askOffset 7 resetState) = [] ∧
    ((Client.response Client.offsetFetch (sent (actsOf 0 (during 0 9 askOffset 7 resetState)))).map fun x =>
      x.1.2.topics.map fun t => (t.name, t.partitions.map fun p => (p.partitionIndex, p.committedOffset))) = some [([116], [(0, 9)])] := by
  obtain ⟨t0, h⟩ := called_run 3 resetting _ rfl
  refine ⟨callRun_of_play 0 3 _ _ rfl rfl (by decide +kernel) rfl, ?_, ⟨_, exchange_of_play h 0 9 askOffset 7 askOffset_wf (by decide +kernel)⟩, rfl, rfl, by decide +kernel⟩
  unfold World.hasPartition
  decide +kernel

def creating : Call := .createPartitionTopics 0 [[116], [117]]
def createdState : Sys := called 4 creating (createPartitionTopics 0 [[116], [117]])

/-- The hypotheses of `C60_created`: a topic is created, then a member joins. -/
example : CallRun oneRecord 0 creating (calls 4 creating (createPartitionTopics 0 [[116], [117]])) createdState ∧
    (∃ t1, Exchange ⟨9092, []⟩ 0 0 askSync 7 t1 (taken 0 askSync 7 createdState) (during 0 6 askSync 7 createdState) (answered 0 6 askSync 7 createdState)) ∧
    ((Client.response Client.syncGroup (sent (actsOf 0 (during 0 6 askSync 7 createdState)))).map fun x => x.1.2.2.2.1) = some [([116], [0]), ([117], [0])] := by
  obtain ⟨t0, h⟩ := called_run 4 creating _ rfl
  exact ⟨callRun_of_play 0 4 _ _ rfl rfl (by decide +kernel) rfl, ⟨_, exchange_of_play h 0 6 askSync 7 askSync_wf (by decide +kernel)⟩, by decide +kernel⟩

/-- A record is posted to partition 1; then both partitions of the topic are asked for in one request. -/
def postingOther : PostCall := ⟨[116], 1, none, some [3], none⟩
def otherState : Sys := called 4 postingOther.call (simplePost [116] 1 none (some [3]))
def askBoth : Request := .fetch ⟨-1, 100, 1, [⟨[116], [⟨0, 0, 1000⟩, ⟨1, 0, 1000⟩]⟩]⟩

theorem askBoth_wf : askBoth.WellFormed := by
  unfold askBoth Request.WellFormed ShortList ShortStr
  decide

theorem askBoth_exchange : ∃ t1,
    Exchange ⟨9092, []⟩ 0 0 askBoth 7 t1 (taken 0 askBoth 7 otherState) (during 0 13 askBoth 7 otherState) (answered 0 13 askBoth 7 otherState) := by
  obtain ⟨t0, h⟩ := called_run 4 postingOther.call _ rfl
  exact ⟨_, exchange_of_play h 0 13 askBoth 7 askBoth_wf (by decide +kernel)⟩

set_option synthInstance.maxSize 1000 in
theorem askBoth_answer : ((Client.response Client.fetch (sent (actsOf 0 (during 0 13 askBoth 7 otherState)))).map fun x =>
    x.1.2.2.map fun t => t.2.map fun p => (p.partition, p.messages.map (·.value))) = some [[(0, [some [1, 2]]), (1, [some [1, 2]])]] := by decide +kernel

/-- The full statement of C59 is false for a Fetch that names two partitions of one topic: while partition 1 holds one record, with value 3, from beginning to
end of the request, the client is given the record of partition 0 for it. -/
theorem C59_false : ∃ (t1 tr : List SEv) (s1 s2 : Sys), Exchange ⟨9092, []⟩ 0 0 askBoth 7 t1 s1 tr s2 ∧
    ((s1.view 0).log [116] 1).map (·.value) = [some [3]] ∧ ((s2.view 0).log [116] 1).map (·.value) = [some [3]] ∧
    ((Client.response Client.fetch (sent (actsOf 0 tr))).map fun x =>
      x.1.2.2.map fun t => t.2.map fun p => (p.partition, p.messages.map (·.value))) = some [[(0, [some [1, 2]]), (1, [some [1, 2]])]] := by
  obtain ⟨t1, h⟩ := askBoth_exchange
  exact ⟨t1, _, _, _, h, by decide +kernel, by decide +kernel, askBoth_answer⟩

/-- The full statement of C60 is false for a Fetch that names two partitions of one topic: SimplePost of the value 3 to partition 1 has returned, and the client
that then asks for partitions 0 and 1 from offset 0 does not get the record. -/
theorem C60_false : ∃ (tc tm t1 tr : List SEv) (sb s1 s2 : Sys), CallRun oneRecord 0 postingOther.call tc sb ∧ Sys.Run sb tm s1 ∧
    Exchange ⟨9092, []⟩ 0 0 askBoth 7 t1 s1 tr s2 ∧
    ((Client.response Client.fetch (sent (actsOf 0 tr))).map fun x =>
      x.1.2.2.map fun t => t.2.map fun p => (p.partition, p.messages.map (·.value))) = some [[(0, [some [1, 2]]), (1, [some [1, 2]])]] := by
  obtain ⟨t1, h⟩ := askBoth_exchange
  obtain ⟨tm, hm⟩ := taken_run 0 askBoth 7 otherState
  exact ⟨_, tm, t1, _, _, _, _, callRun_of_play 0 4 postingOther.call (simplePost [116] 1 none (some [3])) rfl rfl (by decide +kernel) rfl, hm, h, askBoth_answer⟩

end KM.Props
