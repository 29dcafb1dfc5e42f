import Verif.Props.Consumer
/-
C88: a consumer that asks ListOffsets where to begin, and fetches from there.
-/
namespace KM.Props
open KM Spec

/-- A consumer of partition `p` of topic `t` without a group, seen from the wire; it reads responses as a Kafka client does. It has asked for the offset of time `T`
(-1: the end, -2: the beginning) when the partition had the records `before`, and was answered when it had the records `after`. `got` are the messages it has
received since then, `next` the offset it will fetch next. It may use any connection for any request, and everything else in the mock goes on in between. -/
inductive Seeker (t : Bytes) (p : I32) (T : I64) : (before after : List Record) → (got : List MessageV1) → (next : I64) → Sys → Prop where
  /-- it asks, possibly among others, for the offset, and gets it without error -/
  | seek {s s' : Sys} {sv : Server} {clock : Int} {k i j : Nat} {q : ListOffsetsRequest} {c : I32} {t1 tr : List SEv} {qt : ListOffsetsTopic} {qp : ListOffsetsPartition}
      {x : ListOffsetsResponse} {rt : ListOffsetsRespTopic} {rp : ListOffsetsRespPartition} (hx : Exchange sv clock k (.listOffsets q) c t1 s tr s')
      (hi : q.topics[i]? = some qt) (hn : qt.name = t) (hj : qt.partitions[j]? = some qp) (hp : qp.partitionIndex = p) (hT : qp.timestamp = T)
      (ha : Client.response Client.listOffsets (sent (actsOf k tr)) = some ((c, x), [])) (hr : x.topics[i]? = some rt) (hs : rt.partitions[j]? = some rp)
      (he : rp.errorCode = 0) : Seeker t p T ((s.view 0).log t p) ((s'.view 0).log t p) [] rp.offset s'
  /-- others do something -/
  | others {before after : List Record} {got : List MessageV1} {next : I64} {s s' : Sys} {tr : List SEv} (h : Seeker t p T before after got next s)
      (hr : Sys.Run s tr s') : Seeker t p T before after got next s'
  /-- it fetches, and goes on from the high watermark; it may fetch other topics at the same time, one partition of each -/
  | fetch {before after : List Record} {got : List MessageV1} {o : I64} {s s' : Sys} {sv : Server} {clock : Int} {k i : Nat} {c maxBytes : I32} {q : FetchRequest}
      {t1 tr : List SEv} {x : List (Bytes × List Client.FetchedPartition)} {fp : Client.FetchedPartition} (h : Seeker t p T before after got o s)
      (hx : Exchange sv clock k (.fetch q) c t1 s tr s') (hone : ∀ t ∈ q.topics, ∃ p, t.partitions = [p]) (hi : q.topics[i]? = some ⟨t, [⟨p, o, maxBytes⟩]⟩)
      (ha : Client.response Client.fetch (sent (actsOf k tr)) = some ((c, 0, x), [])) (hf : x[i]? = some (t, [fp])) (hl : (sent (actsOf k tr)).length < 2 ^ 31) :
      Seeker t p T before after (got ++ fp.messages) fp.highWatermark s'

/-- Offset `first` of a partition with the records `log` is that of time `T`. -/
def Begins (log : List Record) (T : Int) (first : Nat) : Prop :=
  (T = -1 → first = log.length) ∧ (T = -2 → first = 0) ∧ (T ≠ -1 → T ≠ -2 → TimeOffset log T first)

theorem Begins.le {log : List Record} {T : Int} {first : Nat} (h : Begins log T first) : first ≤ log.length := by
  by_cases h1 : T = -1
  · exact Nat.le_of_eq (h.1 h1)
  · by_cases h2 : T = -2
    · rw [h.2.1 h2]; exact Nat.zero_le _
    · exact (h.2.2 h1 h2).1

/-- **C88**: the messages that the consumer has got are the records of the partition from offset `first` on, in order, without gap or repetition, unaltered and labelled
with their offsets, and it goes on after the last of them. `first` is the offset of time `T` at a moment of the ListOffsets request, when the partition had
`n` records. -/
theorem C88 {t : Bytes} {p : I32} {T : I64} {before after : List Record} {got : List MessageV1} {next : I64} {s : Sys} (h : Seeker t p T before after got next s)
    (hs : ∀ t p, ∀ r ∈ (s.view 0).log t p, wireSize r < 2 ^ 31) (hlen : ((s.view 0).log t p).length < 2 ^ 63) :
    (∃ more, (s.view 0).log t p = after ++ more) ∧
    ∃ first n : Nat, before.length ≤ n ∧ n ≤ after.length ∧ Begins (after.take n) T.toInt first ∧
      Labelled first (slice ((s.view 0).log t p) first got.length) got ∧ next.toInt = first + got.length := by
  have kept : ∀ {s s' : Sys} {tr : List SEv} {after : List Record}, Sys.Run s tr s' →
      (∀ t p, ∀ r ∈ (s'.view 0).log t p, wireSize r < 2 ^ 31) → ((s'.view 0).log t p).length < 2 ^ 63 →
      (∀ t p, ∀ r ∈ (s.view 0).log t p, wireSize r < 2 ^ 31) ∧ ((s.view 0).log t p).length < 2 ^ 63 ∧
      ((∃ more, (s.view 0).log t p = after ++ more) → ∃ more, (s'.view 0).log t p = after ++ more) ∧
      ∀ (first : Nat) (ms : List MessageV1), Labelled first (slice ((s.view 0).log t p) first ms.length) ms →
        Labelled first (slice ((s'.view 0).log t p) first ms.length) ms := by
    intro s s' tr after hr hs hl
    have hk := (C46_kept hr).1
    refine ⟨fun t p r hm => hs t p r (by rw [hk]; exact List.mem_append_left _ hm), ?_, ?_, fun first ms hL => ?_⟩
    · rw [hk, List.length_append] at hl; omega
    · rintro ⟨more, e⟩
      exact ⟨_, by rw [hk, e, List.append_assoc]⟩
    · have h1 := hL.1
      unfold slice at hL h1 ⊢
      rw [List.length_take] at h1
      rw [hk, List.drop_append, List.take_append_of_le_length (by omega)]
      exact hL
  induction h with
  | @seek s s' sv clock k i j q c t1 tr qt qp x rt rp hx hi hn hj hp hT ha hr hsj he =>
    obtain ⟨x, a1, a2⟩ := C59_list_offsets hx
    rw [ha] at a1; cases a1
    obtain ⟨_, a2⟩ := forall2_at a2 hi hr
    obtain ⟨_, a2⟩ := forall2_at a2 hj hsj
    rw [hn, hp, hT] at a2
    rcases a2 with ⟨a2, _⟩ | ⟨_, _, n, n1, n2, b1, b2, b3⟩
    · rw [he] at a2; cases a2
    refine ⟨⟨[], by simp⟩, ?_⟩
    have main : ∃ first, rp.offset = BitVec.ofNat 64 first ∧ Begins (((s'.view 0).log t p).take n) T.toInt first := by
      by_cases h1 : T.toInt = -1
      · exact ⟨n, b1 h1, fun _ => by rw [List.length_take]; omega, fun e => by omega, fun e => absurd h1 e⟩
      · by_cases h2 : T.toInt = -2
        · exact ⟨0, (b2 h2).1, fun e => absurd e h1, fun _ => rfl, fun _ e => absurd h2 e⟩
        · obtain ⟨o, o1, o2⟩ := b3 h1 h2
          exact ⟨o, o1, fun e => absurd e h1, fun e => absurd e h2, fun _ _ => o2⟩
    obtain ⟨first, f1, f2⟩ := main
    refine ⟨first, n, n1, n2, f2, ⟨by simp [slice], by simp [slice]⟩, ?_⟩
    have hle := f2.le
    rw [List.length_take] at hle
    rw [f1, BitVec.toInt_ofNat']
    simp only [List.length_nil]
    rw [Int.bmod_eq_of_le] <;> omega
  | others h hr ih =>
    obtain ⟨k1, k2, k3, k4⟩ := kept hr hs hlen
    obtain ⟨i1, first, n, n1, n2, n3, n4, n5⟩ := ih k1 k2
    exact ⟨k3 i1, first, n, n1, n2, n3, k4 _ _ n4, n5⟩
  | @fetch before after got o s s' sv clock k i c maxBytes q t1 tr x fp h hx hone hi ha hf hl ih =>
    obtain ⟨_, _, _, hserve⟩ := hx.serves
    obtain ⟨k1, k2, k3, k4⟩ := kept hserve.during hs hlen
    obtain ⟨i1, first, n, n1, n2, n3, n4, n5⟩ := ih k1 k2
    obtain ⟨x, a1, a2⟩ := C59_fetch_partial hx hone hs hl
    rw [ha] at a1; cases a1
    obtain ⟨_, a2⟩ := forall2_at a2 hi hf
    cases a2 with
    | cons a2 _ =>
    obtain ⟨_, _, m, m1, m2, m3, m4, _⟩ := a2
    dsimp only at m1 m2 m3 m4
    have i4 := k4 _ _ n4
    refine ⟨k3 i1, first, n, n1, n2, n3, ?_⟩
    generalize (s'.view 0).log t p = log at *
    have e : (log.take m).drop o.toInt.toNat = slice log o.toInt fp.messages.length := by
      have := m3.1
      unfold slice
      rw [this, List.drop_take, List.length_take, List.take_eq_take_iff]
      omega
    rw [e, n5] at m3
    have L : Labelled first (slice log first (got ++ fp.messages).length) (got ++ fp.messages) := by
      rw [List.length_append, slice_add _ (by omega)]
      exact i4.append m3
    refine ⟨L, ?_⟩
    have hle : (got ++ fp.messages).length ≤ log.length := by
      rw [L.1]; unfold slice; rw [List.length_take, List.length_drop]; omega
    have hfl : first + (got ++ fp.messages).length ≤ log.length ∨ (got ++ fp.messages).length = 0 := by
      have := L.1
      unfold slice at this
      rw [List.length_take, List.length_drop] at this
      omega
    have hf2 : first ≤ log.length := by
      have := n3.le
      rw [List.length_take] at this
      obtain ⟨more, e⟩ := k3 i1
      rw [e, List.length_append]; omega
    rw [m4, n5, BitVec.toInt_ofInt]
    simp only [List.length_append, Nat.cast_add] at hle hfl ⊢
    rw [Int.bmod_eq_of_le] <;> omega

/-- **C88** (beginning): a consumer that has asked for the beginning has got the first records of the partition, all of them up to some point. -/
theorem C88_earliest {t : Bytes} {p : I32} {T : I64} {before after : List Record} {got : List MessageV1} {next : I64} {s : Sys}
    (h : Seeker t p T before after got next s) (hT : T.toInt = -2)
    (hs : ∀ t p, ∀ r ∈ (s.view 0).log t p, wireSize r < 2 ^ 31) (hlen : ((s.view 0).log t p).length < 2 ^ 63) :
    Labelled 0 (((s.view 0).log t p).take got.length) got := by
  obtain ⟨_, first, n, _, _, h1, h2, _⟩ := C88 h hs hlen
  cases h1.2.1 hT
  exact h2

/-- **C88** (end): a consumer that has asked for the end has got none of the records that were in the partition when it asked, and has got or will get the first of
those posted after it was answered: those it has got begin at an offset between the two. -/
theorem C88_latest {t : Bytes} {p : I32} {T : I64} {before after : List Record} {got : List MessageV1} {next : I64} {s : Sys}
    (h : Seeker t p T before after got next s) (hT : T.toInt = -1)
    (hs : ∀ t p, ∀ r ∈ (s.view 0).log t p, wireSize r < 2 ^ 31) (hlen : ((s.view 0).log t p).length < 2 ^ 63) :
    ∃ first : Nat, before.length ≤ first ∧ first ≤ after.length ∧ Labelled first (slice ((s.view 0).log t p) first got.length) got := by
  obtain ⟨_, first, n, n1, n2, h1, h2, _⟩ := C88 h hs hlen
  have := h1.1 hT
  rw [List.length_take] at this
  exact ⟨first, by omega, by omega, h2⟩

/-- **C88** (time): if the records of the partition were posted in the order of their timestamps, then of the records that the partition had when the offset was
determined, the consumer gets those of time `T` or later, and no other. -/
theorem C88_time {t : Bytes} {p : I32} {T : I64} {before after : List Record} {got : List MessageV1} {next : I64} {s : Sys}
    (h : Seeker t p T before after got next s) (h1 : T.toInt ≠ -1) (h2 : T.toInt ≠ -2) (sorted : after.Pairwise fun a b => a.timestamp.toInt ≤ b.timestamp.toInt)
    (hs : ∀ t p, ∀ r ∈ (s.view 0).log t p, wireSize r < 2 ^ 31) (hlen : ((s.view 0).log t p).length < 2 ^ 63) :
    ∃ first n : Nat, before.length ≤ n ∧ n ≤ after.length ∧ Labelled first (slice ((s.view 0).log t p) first got.length) got ∧
      ∀ (i : Nat) (r : Record), i < n → ((s.view 0).log t p)[i]? = some r → (first ≤ i ↔ T.toInt ≤ r.timestamp.toInt) := by
  obtain ⟨⟨more, e⟩, first, n, n1, n2, h3, h4, _⟩ := C88 h hs hlen
  refine ⟨first, n, n1, n2, h4, fun i r hi hr => ?_⟩
  refine C30_sorted (h3.2.2 h1 h2) (sorted.sublist (List.take_sublist _ _)) i r ?_
  rw [e, List.getElem?_append_left (by omega)] at hr
  rw [List.getElem?_take_of_lt hi]; exact hr

/-- **C88** (complete): after a Fetch, the consumer has got every record from its first offset on that was in the partition when the Fetch was taken up. -/
theorem C88_complete {t : Bytes} {p : I32} {T : I64} {before after : List Record} {got : List MessageV1} {o : I64} {s s' : Sys} {sv : Server} {clock : Int} {k i : Nat}
    {c maxBytes : I32} {q : FetchRequest} {t1 tr : List SEv} {x : List (Bytes × List Client.FetchedPartition)} {fp : Client.FetchedPartition}
    (h : Seeker t p T before after got o s)
    (hx : Exchange sv clock k (.fetch q) c t1 s tr s') (hone : ∀ t ∈ q.topics, ∃ p, t.partitions = [p]) (hi : q.topics[i]? = some ⟨t, [⟨p, o, maxBytes⟩]⟩)
    (ha : Client.response Client.fetch (sent (actsOf k tr)) = some ((c, 0, x), [])) (hf : x[i]? = some (t, [fp])) (hl : (sent (actsOf k tr)).length < 2 ^ 31)
    (hs : ∀ t p, ∀ r ∈ (s'.view 0).log t p, wireSize r < 2 ^ 31) (hlen : ((s'.view 0).log t p).length < 2 ^ 63) :
    ∃ first n : Nat, before.length ≤ n ∧ n ≤ after.length ∧ Begins (after.take n) T.toInt first ∧
      Labelled first (slice ((s'.view 0).log t p) first (got ++ fp.messages).length) (got ++ fp.messages) ∧
      ((s.view 0).log t p).length ≤ first + (got ++ fp.messages).length := by
  obtain ⟨_, first, n, n1, n2, n3, n4, n5⟩ := C88 (h.fetch hx hone hi ha hf hl) hs hlen
  refine ⟨first, n, n1, n2, n3, n4, ?_⟩
  obtain ⟨x, a1, a2⟩ := C59_fetch_partial hx hone hs hl
  rw [ha] at a1; cases a1
  obtain ⟨_, a2⟩ := forall2_at a2 hi hf
  cases a2 with
  | cons a2 _ =>
  obtain ⟨_, _, m, m1, m2, m3, m4, _⟩ := a2
  dsimp only at m1 m2 m3 m4
  obtain ⟨_, _, _, hserve⟩ := hx.serves
  have hk := (C46_kept hserve.during).1
  obtain ⟨_, first', _, _, _, _, _, o1⟩ := C88 h (fun t p r hm => hs t p r (by rw [hk]; exact List.mem_append_left _ hm))
    (by rw [hk, List.length_append] at hlen; omega)
  have hm := m3.1
  rw [List.length_drop, List.length_take] at hm
  have ho := BitVec.toInt_lt (x := o)
  rw [m4, BitVec.toInt_ofInt, List.length_append] at n5
  rw [List.length_append]
  have hb : ∀ y : Int, 0 ≤ y → y < 2 ^ 64 → Int.bmod y (2 ^ 64) = y ∨ Int.bmod y (2 ^ 64) < 0 := by
    intro y y0 y1
    by_cases hy : y < 2 ^ 63
    · exact .inl (Int.bmod_eq_of_le (by omega) (by omega))
    · right
      simp only [Int.bmod_def]
      split <;> omega
  have := hb (o.toInt + fp.messages.length) (by omega) (by omega)
  omega

/-! ### Examples -/

theorem Seeker.takes {t : Bytes} {p : I32} {T : I64} {before after : List Record} {got : List MessageV1} {next : I64} {s : Sys} (h : Seeker t p T before after got next s)
    (ps : List Pick) (k : Nat) (req : Request) (c : I32) : Seeker t p T before after got next (taken k req c (stateAfter ps s)) :=
  h.others ((stateAfter_run ps s).append ((stateAfter_run (asks k req c) _).append (stateAfter_run [.conn k] _)))

/-- Asks for the offset of time `T` in the partition, and in one that does not exist. -/
def askTime (T : I64) : Request := .listOffsets ⟨-1, [⟨[116], [⟨0, T⟩, ⟨5, T⟩]⟩]⟩
theorem askTime_wf (T : I64) : (askTime T).WellFormed := by
  unfold askTime Request.WellFormed ShortList ShortStr
  exact ⟨by simp, by simp⟩

/-- Asks for the records from offset 1 on. -/
def askFetchOne : Request := .fetch ⟨-1, 100, 1, [⟨[116], [⟨0, 1, 1000⟩]⟩]⟩
theorem askFetchOne_wf : askFetchOne.WellFormed := by
  unfold askFetchOne Request.WellFormed ShortList ShortStr
  decide

def sought (T : I64) : Sys := stateAfter [.conn 0] (answered 0 8 (askTime T) 1 oneRecord)

/-- A second record is posted. -/
def postSecond : List Pick := caller 0 (.simplePost [116] 0 none (some [3])) 6

theorem sought_run (T : I64) : ∃ t, Sys.Run (Sys.new ⟨9092, []⟩ 0) t (sought T) := by
  obtain ⟨_, h0⟩ := oneRecord_run
  exact answered_run h0 0 8 (askTime T) 1

/-- The second record as the client gets it. -/
def gotSecond : Client.FetchedPartition := ⟨0, 0, 2, [⟨1, 35, 0x4840df65, 1, 0, 0, none, some [3]⟩]⟩

def answerTo (o : I64) : ListOffsetsRespTopic := ⟨[116], [⟨0, 0, 0, o⟩, ⟨5, 3, 0, 0⟩]⟩

set_option synthInstance.maxSize 1000 in
set_option maxRecDepth 100000 in
/-- The hypotheses of `C88`, `C88_earliest` and `C88_complete`: a consumer that asks for the beginning of a partition with one record has got the record. -/
example : Seeker [116] 0 (-2) ((taken 0 (askTime (-2)) 1 oneRecord |>.view 0).log [116] 0) ((answered 0 8 (askTime (-2)) 1 oneRecord |>.view 0).log [116] 0)
    gotIt.messages 1 (answered 0 10 askFetch 2 (sought (-2))) := by
  obtain ⟨_, h0⟩ := oneRecord_run
  obtain ⟨_, h1⟩ := sought_run (-2)
  have c1 : Seeker [116] 0 (-2) _ _ _ _ _ := .seek (exchange_of_play h0 0 8 (askTime (-2)) 1 (askTime_wf _) (by decide +kernel)) (i := 0) (j := 0) rfl rfl rfl rfl rfl
    (x := ⟨[answerTo 0]⟩) (by decide +kernel) rfl rfl rfl
  exact (c1.takes [.conn 0] 0 askFetch 2).fetch (exchange_of_play h1 0 10 askFetch 2 askFetch_wf (by decide +kernel))
    (by simp) (i := 0) rfl (x := [([116], [gotIt])]) (fp := gotIt) (by decide +kernel) rfl (by decide +kernel)

set_option synthInstance.maxSize 1000 in
set_option maxRecDepth 100000 in
/-- The hypotheses of `C88_latest` and, with time 5, of `C88_time`: a consumer that asks for the end, or for the records of time 5 or later, gets the record posted after
that, and not the one before. -/
example : (∀ T ∈ [(-1 : I64), 5], Seeker [116] 0 T ((taken 0 (askTime T) 1 oneRecord |>.view 0).log [116] 0) ((answered 0 8 (askTime T) 1 oneRecord |>.view 0).log [116] 0)
      gotSecond.messages 2 (answered 0 10 askFetchOne 2 (stateAfter postSecond (sought T)))) ∧
    ((answered 0 8 (askTime 5) 1 oneRecord |>.view 0).log [116] 0).Pairwise (fun a b => a.timestamp.toInt ≤ b.timestamp.toInt) := by
  constructor
  · intro T hT
    obtain ⟨_, h0⟩ := oneRecord_run
    obtain ⟨_, h1⟩ := sought_run T
    have h2 := h1.append (stateAfter_run postSecond _)
    simp only [List.mem_cons, List.not_mem_nil, or_false] at hT
    rcases hT with rfl | rfl
    · have c1 : Seeker [116] 0 (-1) _ _ _ _ _ := .seek (exchange_of_play h0 0 8 (askTime (-1)) 1 (askTime_wf _) (by decide +kernel)) (i := 0) (j := 0) rfl rfl rfl rfl rfl
        (x := ⟨[answerTo 1]⟩) (by decide +kernel) rfl rfl rfl
      exact ((c1.others (stateAfter_run [.conn 0] _)).takes postSecond 0 askFetchOne 2).fetch (exchange_of_play h2 0 10 askFetchOne 2 askFetchOne_wf (by decide +kernel))
        (by simp) (i := 0) rfl (x := [([116], [gotSecond])]) (fp := gotSecond) (by decide +kernel) rfl (by decide +kernel)
    · have c1 : Seeker [116] 0 5 _ _ _ _ _ := .seek (exchange_of_play h0 0 8 (askTime 5) 1 (askTime_wf _) (by decide +kernel)) (i := 0) (j := 0) rfl rfl rfl rfl rfl
        (x := ⟨[answerTo 1]⟩) (by decide +kernel) rfl rfl rfl
      exact ((c1.others (stateAfter_run [.conn 0] _)).takes postSecond 0 askFetchOne 2).fetch (exchange_of_play h2 0 10 askFetchOne 2 askFetchOne_wf (by decide +kernel))
        (by simp) (i := 0) rfl (x := [([116], [gotSecond])]) (fp := gotSecond) (by decide +kernel) rfl (by decide +kernel)
  · decide +kernel

end KM.Props
