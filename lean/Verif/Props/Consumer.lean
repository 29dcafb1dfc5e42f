import Verif.Props.Visible
import Verif.Props.FetchLive
/-
C71: a consumer group that commits what it has processed gets every record exactly once, across crashes and reconnects.
-/
namespace KM.Props
open KM Spec

/-- Nobody commits or sets the group's offset in the partition. -/
def Quiet (g t : Bytes) (p : I32) (tr : List SEv) : Prop := ∀ o, .commit t p g o ∉ effectsOf tr ∧ .reset t p g o ∉ effectsOf tr

/-- A consumer of partition `p` of topic `t` in group `g`, seen from the wire; it reads responses as a Kafka client does. `done` are the messages it has
received and whose offset it has committed, `pending` those received after them, `next` the offset it will fetch next, if it has one. It may use any
connection for any request, and everything else in the mock goes on in between; but nobody else moves the group's offset. -/
inductive Consumer (g t : Bytes) (p : I32) (first : Int) : (done pending : List MessageV1) → (next : Option I64) → Sys → Prop where
  /-- before it does anything; `first` is what the group has committed so far -/
  | start {s : Sys} (hf : ((s.view 0).committed t p g).toInt = first) : Consumer g t p first [] [] none s
  /-- others do something -/
  | others {done pending : List MessageV1} {next : Option I64} {s s' : Sys} {tr : List SEv} (h : Consumer g t p first done pending next s) (hr : Sys.Run s tr s')
      (hq : Quiet g t p tr) : Consumer g t p first done pending next s'
  /-- it crashes, and forgets what it has not committed -/
  | crash {done pending : List MessageV1} {next : Option I64} {s : Sys} (h : Consumer g t p first done pending next s) : Consumer g t p first done [] none s
  /-- it asks, among others, for the committed offset, and goes on from there -/
  | resume {done : List MessageV1} {s s' : Sys} {sv : Server} {clock : Int} {k : Nat} {q : OffsetFetchRequest} {c : I32} {t1 tr : List SEv}
      {x : OffsetFetchResponse} {rt : OffsetFetchRespTopic} {rp : OffsetFetchRespPartition} (h : Consumer g t p first done [] none s)
      (hx : Exchange sv clock k (.offsetFetch q) c t1 s tr s') (hg : q.groupId = g)
      (ha : Client.response Client.offsetFetch (sent (actsOf k tr)) = some ((c, x), [])) (ht : rt ∈ x.topics) (hn : rt.name = t) (hp : rp ∈ rt.partitions)
      (hi : rp.partitionIndex = p) (hq : Quiet g t p tr) : Consumer g t p first done [] (some rp.committedOffset) s'
  /-- it fetches from there, and goes on from the high watermark; it may fetch other topics at the same time, one partition of each -/
  | fetch {done pending : List MessageV1} {o : I64} {s s' : Sys} {sv : Server} {clock : Int} {k i : Nat} {c maxBytes : I32} {q : FetchRequest} {t1 tr : List SEv}
      {x : List (Bytes × List Client.FetchedPartition)} {fp : Client.FetchedPartition} (h : Consumer g t p first done pending (some o) s)
      (hx : Exchange sv clock k (.fetch q) c t1 s tr s') (hone : ∀ t ∈ q.topics, ∃ p, t.partitions = [p]) (hi : q.topics[i]? = some ⟨t, [⟨p, o, maxBytes⟩]⟩)
      (ha : Client.response Client.fetch (sent (actsOf k tr)) = some ((c, 0, x), [])) (hf : x[i]? = some (t, [fp])) (hl : (sent (actsOf k tr)).length < 2 ^ 31)
      (hq : Quiet g t p tr) : Consumer g t p first done (pending ++ fp.messages) (some fp.highWatermark) s'
  /-- it commits that offset, possibly among others, without error -/
  | commit {done pending : List MessageV1} {o : I64} {s s' : Sys} {sv : Server} {clock : Int} {k i j : Nat} {c : I32} {q : CommitRequest} {qt : CommitTopic} {qp : CommitPartition}
      {t1 tr : List SEv} {x : CommitResponse} {rt : CommitRespTopic} {rp : CommitRespPartition} (h : Consumer g t p first done pending (some o) s)
      (hx : Exchange sv clock k (.offsetCommit q) c t1 s tr s') (hg : q.groupId = g) (hi : q.topics[i]? = some qt) (hn : qt.name = t) (hj : qt.partitions[j]? = some qp)
      (hp : qp.partitionIndex = p) (ho : qp.committedOffset = o)
      (ha : Client.response Client.commit (sent (actsOf k tr)) = some ((c, x), [])) (hr : x.topics[i]? = some rt) (hs : rt.partitions[j]? = some rp) (he : rp.errorCode = 0)
      (hq : ∀ o', (.commit t p g o' ∈ effectsOf tr → o' = o.toInt) ∧ .reset t p g o' ∉ effectsOf tr) : Consumer g t p first (done ++ pending) [] (some o) s'

theorem forall2_at {α β : Type _} {R : α → β → Prop} {l : List α} {l' : List β} (h : List.Forall₂ R l l') {i : Nat} {a : α} {b : β} (ha : l[i]? = some a) (hb : l'[i]? = some b) : R a b := by
  induction h generalizing i with
  | nil => cases ha
  | cons hr _ ih =>
    cases i with
    | zero => cases ha; cases hb; exact hr
    | succ i => exact ih ha hb

theorem committedFrom_quiet {h : List Eff} {t : Bytes} {p : I32} {g : Bytes} (hq : ∀ o, .commit t p g o ∉ h ∧ .reset t p g o ∉ h) (c : Int) :
    Spec.committedFrom c h t p g = c := by
  induction h with
  | nil => rfl
  | cons e h ih =>
    have ih := ih fun o => ⟨fun hm => (hq o).1 (List.mem_cons_of_mem _ hm), fun hm => (hq o).2 (List.mem_cons_of_mem _ hm)⟩
    cases e with
    | post => exact ih
    | commit t' p' g' o' =>
      simp only [Spec.committedFrom]
      rw [if_neg]
      · exact ih
      · rintro ⟨rfl, rfl, rfl⟩; exact (hq o').1 List.mem_cons_self
    | reset t' p' g' o' =>
      simp only [Spec.committedFrom]
      rw [if_neg]
      · exact ih
      · rintro ⟨rfl, rfl, rfl⟩; exact (hq o').2 List.mem_cons_self

theorem committedFrom_only {h : List Eff} {t : Bytes} {p : I32} {g : Bytes} {o : Int} (hq : ∀ o', (.commit t p g o' ∈ h → o' = o) ∧ .reset t p g o' ∉ h) {c : Int}
    (hc : c ≤ o) : Spec.committedFrom c h t p g ≤ o := by
  induction h generalizing c with
  | nil => exact hc
  | cons e h ih =>
    have ih := fun {c} hc => ih (c := c) (fun o' => ⟨fun hm => (hq o').1 (List.mem_cons_of_mem _ hm), fun hm => (hq o').2 (List.mem_cons_of_mem _ hm)⟩) hc
    cases e with
    | post => exact ih hc
    | commit t' p' g' o' =>
      simp only [Spec.committedFrom]
      refine ih ?_
      split
      · next hh =>
        obtain ⟨rfl, rfl, rfl⟩ := hh
        have := (hq o').1 List.mem_cons_self
        omega
      · exact hc
    | reset t' p' g' o' =>
      simp only [Spec.committedFrom]
      rw [if_neg]
      · exact ih hc
      · rintro ⟨rfl, rfl, rfl⟩; exact (hq o').2 List.mem_cons_self

theorem Labelled.part {s : Int} {log : List Record} {m1 m2 : List MessageV1} (h : Labelled s (slice log s (m1 ++ m2).length) (m1 ++ m2)) :
    Labelled s (slice log s m1.length) m1 := by
  obtain ⟨h1, h2⟩ := h
  unfold slice at *
  rw [List.length_take, List.length_append] at h1
  refine ⟨by rw [List.length_take]; omega, fun i r m hr hm => h2 i r m ?_ ?_⟩
  · rw [List.getElem?_take] at hr ⊢
    split at hr
    · rw [if_pos (by rw [List.length_append]; omega)]; exact hr
    · cases hr
  · rw [List.getElem?_append_left (List.getElem?_eq_some_iff.1 hm).1]; exact hm

/-- **C71**: the messages a consumer has got, those it has committed and those after them, are the records of the partition from the group's first offset on, in order, without
gap or repetition, unaltered; the group's committed offset is the one after the last committed message, and the consumer goes on after the last message. -/
theorem C71 {g t : Bytes} {p : I32} {first : Int} {done pending : List MessageV1} {next : Option I64} {s : Sys} (h : Consumer g t p first done pending next s)
    (h0 : 0 ≤ first) (hs : ∀ t p, ∀ r ∈ (s.view 0).log t p, wireSize r < 2 ^ 31) (hlen : first + ((s.view 0).log t p).length < 2 ^ 63) :
    Labelled first (slice ((s.view 0).log t p) first (done ++ pending).length) (done ++ pending) ∧
    (∀ o, next = some o → o.toInt = first + (done ++ pending).length) ∧ ((s.view 0).committed t p g).toInt = first + done.length := by
  have kept : ∀ {s s' : Sys} {tr : List SEv} {ms : List MessageV1}, Sys.Run s tr s' →
      (∀ t p, ∀ r ∈ (s'.view 0).log t p, wireSize r < 2 ^ 31) → first + ((s'.view 0).log t p).length < 2 ^ 63 →
      (∀ t p, ∀ r ∈ (s.view 0).log t p, wireSize r < 2 ^ 31) ∧ first + ((s.view 0).log t p).length < 2 ^ 63 ∧
      (Labelled first (slice ((s.view 0).log t p) first ms.length) ms → Labelled first (slice ((s'.view 0).log t p) first ms.length) ms) := by
    intro s s' tr ms hr hs hl
    have hk := (C46_kept hr).1
    refine ⟨fun t p r hm => hs t p r (by rw [hk]; exact List.mem_append_left _ hm), ?_, fun hL => ?_⟩
    · rw [hk, List.length_append] at hl; omega
    · have h1 := hL.1
      unfold slice at hL h1 ⊢
      rw [List.length_take] at h1
      rw [hk, List.drop_append, List.take_append_of_le_length (by omega)]
      exact hL
  induction h with
  | start hf => exact ⟨⟨by simp [slice], by simp [slice]⟩, nofun, by rw [hf]; simp⟩
  | others h hr hq ih =>
    obtain ⟨k1, k2, k3⟩ := kept hr hs hlen
    obtain ⟨i1, i2, i3⟩ := ih k1 k2
    refine ⟨k3 i1, i2, ?_⟩
    rw [(C46_kept hr).2.1, committedFrom_quiet hq, i3]
  | crash h ih =>
    obtain ⟨i1, i2, i3⟩ := ih hs hlen
    refine ⟨?_, nofun, i3⟩
    rw [List.append_nil]
    exact i1.part
  | @resume done s s' sv clock k q c t1 tr x rt rp h hx hg ha ht hn hp hi hq ih =>
    obtain ⟨_, _, _, hserve⟩ := hx.serves
    have hr := hserve.during
    obtain ⟨k1, k2, k3⟩ := kept hr hs hlen
    obtain ⟨i1, _, i3⟩ := ih k1 k2
    refine ⟨k3 i1, fun o ho => ?_, ?_⟩
    · cases ho
      obtain ⟨x', a1, _, _, a2⟩ := C59_offset_fetch hx
      rw [ha] at a1; cases a1
      obtain ⟨_, _, _, n, e⟩ := a2 rt ht rp hp
      rw [e, hn, hi, hg, committedFrom_quiet (fun o => ⟨fun hm => (hq o).1 (List.mem_of_mem_take hm), fun hm => (hq o).2 (List.mem_of_mem_take hm)⟩), i3, List.append_nil]
    · rw [(C46_kept hr).2.1, committedFrom_quiet hq, i3]
  | @fetch done pending o s s' sv clock k i c maxBytes q t1 tr x fp h hx hone hi ha hf hl hq ih =>
    obtain ⟨_, _, _, hserve⟩ := hx.serves
    have hr := hserve.during
    obtain ⟨k1, k2, k3⟩ := kept hr hs hlen
    obtain ⟨i1, i2, i3⟩ := ih k1 k2
    have i1 := k3 i1
    have ho := i2 o rfl
    obtain ⟨x, a1, a2⟩ := C59_fetch_partial hx hone hs hl
    rw [ha] at a1; cases a1
    obtain ⟨_, a2⟩ := forall2_at a2 hi hf
    cases a2 with
    | cons a2 _ =>
    obtain ⟨_, _, n, n1, n2, n3, n4, _⟩ := a2
    dsimp only at n1 n2 n3 n4
    generalize (s'.view 0).log t p = log at *
    have e : (log.take n).drop o.toInt.toNat = slice log o.toInt fp.messages.length := by
      have := n3.1
      unfold slice
      rw [this, List.drop_take, List.length_take, List.take_eq_take_iff]
      omega
    rw [e, ho] at n3
    have L : Labelled first (slice log first (done ++ (pending ++ fp.messages)).length) (done ++ (pending ++ fp.messages)) := by
      rw [← List.append_assoc, List.length_append, slice_add _ h0]
      exact i1.append n3
    refine ⟨L, fun o' ho' => ?_, ?_⟩
    · cases ho'
      have hle : (done ++ (pending ++ fp.messages)).length ≤ log.length := by
        rw [L.1]; unfold slice; rw [List.length_take, List.length_drop]; omega
      rw [n4, ho, BitVec.toInt_ofInt]
      simp only [List.length_append, Nat.cast_add] at hle ⊢
      rw [Int.bmod_eq_of_le] <;> omega
    · rw [(C46_kept hr).2.1, committedFrom_quiet hq, i3]
  | @commit done pending o s s' sv clock k i j c q qt qp t1 tr x rt rp h hx hg hi hn hj hp ho' ha hri hsj he hq ih =>
    obtain ⟨_, _, _, hserve⟩ := hx.serves
    have hr := hserve.during
    obtain ⟨k1, k2, k3⟩ := kept hr hs hlen
    obtain ⟨i1, i2, i3⟩ := ih k1 k2
    have ho := i2 o rfl
    rw [List.append_nil]
    refine ⟨k3 i1, fun o' ho' => by cases ho'; exact ho, ?_⟩
    obtain ⟨x, a1, a2⟩ := C59_commit hx
    rw [ha] at a1; cases a1
    obtain ⟨_, a2⟩ := forall2_at a2 hi hri
    obtain ⟨_, a2⟩ := forall2_at a2 hj hsj
    rw [hn, hp, hg, ho'] at a2
    rcases a2 with ⟨a2, _⟩ | ⟨_, _, a2⟩
    · rw [he] at a2; cases a2
    · have hge := a2 fun o' => (hq o').2
      have hle : ((s'.view 0).committed t p g).toInt ≤ o.toInt := by
        rw [(C46_kept hr).2.1]
        refine committedFrom_only hq ?_
        rw [i3, ho, List.length_append]; omega
      omega

/-- **C71**, nothing is missed: after a Fetch, the consumer has got every record that was in the partition when the Fetch was taken up. -/
theorem C71_complete {g t : Bytes} {p : I32} {first : Int} {done pending : List MessageV1} {o : I64} {s s' : Sys} {sv : Server} {clock : Int} {k i : Nat}
    {c maxBytes : I32} {q : FetchRequest} {t1 tr : List SEv} {x : List (Bytes × List Client.FetchedPartition)} {fp : Client.FetchedPartition}
    (h : Consumer g t p first done pending (some o) s)
    (hx : Exchange sv clock k (.fetch q) c t1 s tr s') (hone : ∀ t ∈ q.topics, ∃ p, t.partitions = [p]) (hi : q.topics[i]? = some ⟨t, [⟨p, o, maxBytes⟩]⟩)
    (ha : Client.response Client.fetch (sent (actsOf k tr)) = some ((c, 0, x), [])) (hf : x[i]? = some (t, [fp])) (hl : (sent (actsOf k tr)).length < 2 ^ 31)
    (h0 : 0 ≤ first) (hs : ∀ t p, ∀ r ∈ (s'.view 0).log t p, wireSize r < 2 ^ 31) (hlen : first + ((s'.view 0).log t p).length < 2 ^ 63) :
    (((s.view 0).log t p).length : Int) ≤ first + (done ++ (pending ++ fp.messages)).length := by
  obtain ⟨_, _, _, hserve⟩ := hx.serves
  have hk := (C46_kept hserve.during).1
  obtain ⟨i1, i2, i3⟩ := C71 h h0 (fun t p r hm => hs t p r (by rw [hk]; exact List.mem_append_left _ hm))
    (by rw [hk, List.length_append] at hlen; omega)
  have ho := i2 o rfl
  obtain ⟨x, a1, a2⟩ := C59_fetch_partial hx hone hs hl
  rw [ha] at a1; cases a1
  obtain ⟨_, a2⟩ := forall2_at a2 hi hf
  cases a2 with
  | cons a2 _ =>
  obtain ⟨_, _, n, n1, n2, n3, _⟩ := a2
  have := n3.1
  rw [List.length_drop, List.length_take] at this
  dsimp only at n1 n2 this
  simp only [List.length_append] at ho ⊢
  omega

/-! ### Example: a consumer that crashes before and after its commit -/

theorem quiet_of_nil {g t : Bytes} {p : I32} {tr : List SEv} (h : effectsOf tr = []) : Quiet g t p tr := fun o => by rw [h]; exact ⟨nofun, nofun⟩

theorem Consumer.takes {g t : Bytes} {p : I32} {first : Int} {done pending : List MessageV1} {next : Option I64} {s : Sys} (h : Consumer g t p first done pending next s)
    (ps : List Pick) (k : Nat) (req : Request) (c : I32)
    (hq : effectsOf (eventsOf ps s ++ (eventsOf (asks k req c) (stateAfter ps s) ++ eventsOf [.conn k] (stateAfter (asks k req c) (stateAfter ps s)))) = []) :
    Consumer g t p first done pending next (taken k req c (stateAfter ps s)) :=
  h.others ((stateAfter_run ps s).append ((stateAfter_run (asks k req c) _).append (stateAfter_run [.conn k] _))) (quiet_of_nil hq)

theorem answered_run {s : Sys} {t0 : List SEv} (h0 : Sys.Run (Sys.new ⟨9092, []⟩ 0) t0 s) (k n : Nat) (req : Request) (c : I32) :
    ∃ t, Sys.Run (Sys.new ⟨9092, []⟩ 0) t (stateAfter [.conn k] (answered k n req c s)) := by
  obtain ⟨ta, h⟩ := taken_run k req c s
  exact ⟨_, ((h0.append h).append (stateAfter_run (List.replicate n (.conn k)) _)).append (stateAfter_run [.conn k] _)⟩

/-- The commit of the record. -/
def askCommitOne : Request := .offsetCommit ⟨[103], 1, [109], -1, [⟨[116], [⟨0, 1, none⟩]⟩]⟩
theorem askCommitOne_wf : askCommitOne.WellFormed := by
  unfold askCommitOne Request.WellFormed ShortList ShortStr
  decide

/-- The consumer asks for its offset, fetches, and crashes; it asks again, fetches again, commits and crashes again; then it asks a third time. -/
def work1 : Sys := stateAfter [.conn 0] (answered 0 9 askOffset 1 oneRecord)
def work2 : Sys := stateAfter [.conn 0] (answered 0 10 askFetch 2 work1)
def work3 : Sys := stateAfter [.conn 0] (answered 0 9 askOffset 3 work2)
def work4 : Sys := stateAfter [.conn 0] (answered 0 10 askFetch 4 work3)
def work5 : Sys := stateAfter [.conn 0] (answered 0 6 askCommitOne 5 work4)
def work6 : Sys := answered 0 9 askOffset 6 work5

/-- The record as the client gets it. -/
def gotIt : Client.FetchedPartition := ⟨0, 0, 1, [⟨0, 36, 0x2a52149a, 1, 0, 0, none, some [1, 2]⟩]⟩

def offsetIs (o : I64) : OffsetFetchRespPartition := ⟨0, o, none, 0⟩

set_option synthInstance.maxSize 1000 in
set_option maxRecDepth 100000 in
/-- The hypotheses of `C71` and `C71_complete`: the consumer has got the record once, though it fetched it twice, and will go on after it. -/
example : Consumer [103] [116] 0 0 gotIt.messages [] (some 1) work6 := by
  obtain ⟨_, h0⟩ := oneRecord_run
  obtain ⟨_, h1⟩ := answered_run h0 0 9 askOffset 1
  obtain ⟨_, h2⟩ := answered_run h1 0 10 askFetch 2
  obtain ⟨_, h3⟩ := answered_run h2 0 9 askOffset 3
  obtain ⟨_, h4⟩ := answered_run h3 0 10 askFetch 4
  obtain ⟨_, h5⟩ := answered_run h4 0 6 askCommitOne 5
  have c0 : Consumer [103] [116] 0 0 [] [] none oneRecord := .start (by decide +kernel)
  have c1 := (c0.takes [] 0 askOffset 1 (by decide +kernel)).resume (exchange_of_play h0 0 9 askOffset 1 askOffset_wf (by decide +kernel)) rfl
    (x := ⟨[⟨[116], [offsetIs 0]⟩]⟩) (rt := ⟨[116], [offsetIs 0]⟩) (rp := offsetIs 0) (by decide +kernel) (by simp) rfl (by simp) rfl (quiet_of_nil (by decide +kernel))
  have c2 := (c1.takes [.conn 0] 0 askFetch 2 (by decide +kernel)).fetch (exchange_of_play h1 0 10 askFetch 2 askFetch_wf (by decide +kernel))
    (by simp) (i := 0) rfl (x := [([116], [gotIt])]) (fp := gotIt) (by decide +kernel) rfl (by decide +kernel) (quiet_of_nil (by decide +kernel))
  have c3 := (c2.crash.takes [.conn 0] 0 askOffset 3 (by decide +kernel)).resume (exchange_of_play h2 0 9 askOffset 3 askOffset_wf (by decide +kernel)) rfl
    (x := ⟨[⟨[116], [offsetIs 0]⟩]⟩) (rt := ⟨[116], [offsetIs 0]⟩) (rp := offsetIs 0) (by decide +kernel) (by simp) rfl (by simp) rfl (quiet_of_nil (by decide +kernel))
  have c4 := (c3.takes [.conn 0] 0 askFetch 4 (by decide +kernel)).fetch (exchange_of_play h3 0 10 askFetch 4 askFetch_wf (by decide +kernel))
    (by simp) (i := 0) rfl (x := [([116], [gotIt])]) (fp := gotIt) (by decide +kernel) rfl (by decide +kernel) (quiet_of_nil (by decide +kernel))
  have c5 := (c4.takes [.conn 0] 0 askCommitOne 5 (by decide +kernel)).commit (exchange_of_play h4 0 6 askCommitOne 5 askCommitOne_wf (by decide +kernel))
    (i := 0) (j := 0) rfl rfl rfl rfl rfl rfl (x := ⟨[⟨[116], [⟨0, 0⟩]⟩]⟩) (by decide +kernel) rfl rfl rfl (by
      have : effectsOf (during 0 6 askCommitOne 5 work4) = [.commit [116] 0 [103] 1] := rfl
      intro o'
      change (_ ∈ effectsOf (during 0 6 askCommitOne 5 work4) → _) ∧ _ ∉ effectsOf (during 0 6 askCommitOne 5 work4)
      rw [this]
      refine ⟨fun h => ?_, nofun⟩
      simp at h; rw [h]; rfl)
  exact (c5.crash.takes [.conn 0] 0 askOffset 6 (by decide +kernel)).resume (exchange_of_play h5 0 9 askOffset 6 askOffset_wf (by decide +kernel)) rfl
    (x := ⟨[⟨[116], [offsetIs 1]⟩]⟩) (rt := ⟨[116], [offsetIs 1]⟩) (rp := offsetIs 1) (by decide +kernel) (by simp) rfl (by simp) rfl (quiet_of_nil (by decide +kernel))

end KM.Props
