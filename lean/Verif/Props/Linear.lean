import Verif.Props.Sequential
import Verif.Props.Snapshot
/-
C94: requests about one partition, and calls of the tests, are linearizable: whoever uses the mock at the same time, there is an order of what they do, in accordance with
the order in time, in which the machine of `Spec/Sequence.lean` gives the same answers.
-/
namespace KM.Props
open KM Spec

deriving instance DecidableEq for Who

/-- A run of the mock from its beginning: the states, and the events that lead from one to the next. -/
structure Timeline (sv : Server) (clock : Int) where
  length : Nat
  st : Nat → Sys
  ev : Nat → SEv
  start : st 0 = Sys.new sv clock
  step : ∀ i, i < length → Sys.Step (st i) (ev i) (st (i + 1))

/-- The events from state `a` to state `b`. -/
def Timeline.slice {sv : Server} {clock : Int} (H : Timeline sv clock) (a b : Nat) : List SEv := (List.range' a (b - a)).map H.ev

/-- What is done with the mock by whom, and between which states: from the taking up of a request to its answer, from a call to its return. -/
structure Operation where
  start : Nat
  finish : Nat
  who : Who
  what : Happening

/-- No partition that the request names is created and written to between the two states. -/
def Steady (s1 s2 : Sys) (q : FetchRequest) : Prop := ∀ t ∈ q.topics, ∀ p ∈ t.partitions, Settled s1 s2 t.topic p.partition

/-- Requests other than SyncGroup, and Fetch if it has one partition per topic or names no partition that is created and written to at the same time. -/
inductive Single (s1 s2 : Sys) : Request → Prop where
  | fetch (q : FetchRequest) (h : (∀ t ∈ q.topics, ∃ p, t.partitions = [p]) ∨ Steady s1 s2 q) : Single s1 s2 (.fetch q)
  | listOffsets (q : ListOffsetsRequest) : Single s1 s2 (.listOffsets q)
  | commit (q : CommitRequest) : Single s1 s2 (.offsetCommit q)
  | offsetFetch (q : OffsetFetchRequest) : Single s1 s2 (.offsetFetch q)
  | aside {req : Request} (h : aside req = true) : Single s1 s2 req

/-- The records and the response are of a size that the wire format has room for. -/
structure Roomy (k : Nat) (tr : List SEv) (s2 : Sys) : Prop where
  records : ∀ t p, ∀ r ∈ (s2.view 0).log t p, wireSize r < 2 ^ 31
  response : (sent (actsOf k tr)).length < 2 ^ 31

/-- The operation is part of the run. -/
inductive Operation.In {sv : Server} {clock : Int} (H : Timeline sv clock) : Operation → Prop where
  | request {a b k : Nat} {req : Request} {c : I32} {t1 : List SEv} (hab : a < b) (hb : b ≤ H.length) (h : Exchange sv clock k req c t1 (H.st a) (H.slice a b) (H.st b))
      (single : Single (H.st a) (H.st b) req) (hs : Roomy k (H.slice a b) (H.st b)) : In H ⟨a, b, .conn k, .answered req c (sent (actsOf k (H.slice a b)))⟩
  | post {a b i : Nat} {call : PostCall} (hab : a < b) (hb : b ≤ H.length) (he : H.ev a = .life (.api i call.call))
      (h : CallRun (H.st a) i call.call (H.slice (a + 1) b) (H.st b)) : In H ⟨a, b, .caller i, .posted call⟩
  | create {a b i : Nat} {n : Int} {topics : List Bytes} (hab : a < b) (hb : b ≤ H.length) (he : H.ev a = .life (.api i (.createPartitionTopics n topics)))
      (h : CallRun (H.st a) i (.createPartitionTopics n topics) (H.slice (a + 1) b) (H.st b)) : In H ⟨a, b, .caller i, .created n topics⟩
  | reset {a b i : Nat} {topic group : Bytes} {n : Int} {o : I64} (hab : a < b) (hb : b ≤ H.length) (he : H.ev a = .life (.api i (.setConsumerGroupOffset topic n group o)))
      (h : CallRun (H.st a) i (.setConsumerGroupOffset topic n group o) (H.slice (a + 1) b) (H.st b)) : In H ⟨a, b, .caller i, .reset topic n group o⟩

/-- A request about several partitions that is served between the states `s1` and `s2`, taken apart: one request per partition, with its part of the answer that the client reads.
A Fetch request is not taken apart, unless a partition that it names is created and written to meanwhile. -/
inductive Pieces (s1 s2 : Sys) : Happening → List Use → Prop where
  | whole {q : FetchRequest} {c : I32} {b : Bytes} {x : List (Bytes × List Client.FetchedPartition)} (hw : Steady s1 s2 q)
      (h : Client.response Client.fetch b = some ((c, 0, x), [])) : Pieces s1 s2 (.answered (.fetch q) c b) [.fetch q (seen x)]
  | fetch {q : FetchRequest} {c : I32} {b : Bytes} {x : List (Bytes × List Client.FetchedPartition)} (hw : ¬ Steady s1 s2 q)
      (h : Client.response Client.fetch b = some ((c, 0, x), [])) (hl : q.topics.length = x.length) :
      Pieces s1 s2 (.answered (.fetch q) c b) ((q.topics.zip (seen x)).map fun z => .fetch { q with topics := [z.1] } [z.2])
  | listOffsets {q : ListOffsetsRequest} {c : I32} {b : Bytes} {x : ListOffsetsResponse} (h : Client.response Client.listOffsets b = some ((c, x), []))
      (hl : List.Forall₂ (fun (qt : ListOffsetsTopic) (rt : ListOffsetsRespTopic) => qt.partitions.length = rt.partitions.length) q.topics x.topics) :
      Pieces s1 s2 (.answered (.listOffsets q) c b) ((q.topics.zip x.topics).flatMap fun z => (z.1.partitions.zip z.2.partitions).map fun y =>
        .listOffsets { q with topics := [{ name := z.1.name, partitions := [y.1] }] } [{ name := z.2.name, partitions := [y.2] }])
  | commit {q : CommitRequest} {c : I32} {b : Bytes} {x : CommitResponse} (h : Client.response Client.commit b = some ((c, x), []))
      (hl : List.Forall₂ (fun (qt : CommitTopic) (rt : CommitRespTopic) => qt.partitions.length = rt.partitions.length) q.topics x.topics) :
      Pieces s1 s2 (.answered (.offsetCommit q) c b) ((q.topics.zip x.topics).flatMap fun z => (z.1.partitions.zip z.2.partitions).map fun y =>
        .commit { q with topics := [{ name := z.1.name, partitions := [y.1] }] } { topics := [{ name := z.2.name, partitions := [y.2] }] })
  /-- `os`: for each partition that the request names, its entry in the answer, if it has one. The entries of a topic are in the order of the request. -/
  | offsetFetch {q : OffsetFetchRequest} {c : I32} {b : Bytes} {x : OffsetFetchResponse} (h : Client.response Client.offsetFetch b = some ((c, x), []))
      (os : List (Option OffsetFetchRespPartition)) (hl : os.length = (OffsetFetchRequest.named q).length) (hn : (x.topics.map (·.name)).Nodup)
      (ho : ∀ n, ((x.topics.filter fun t => t.name = n).flatMap (·.partitions)) = ((OffsetFetchRequest.named q).zip os).filterMap fun z => if z.1.1 = n then z.2 else none) :
      Pieces s1 s2 (.answered (.offsetFetch q) c b) (((OffsetFetchRequest.named q).zip os).map fun z =>
        .offsetFetch { q with topics := [⟨z.1.1, [z.1.2]⟩] } (match z.2 with
          | none => []
          | some rp => [{ name := z.1.1, partitions := [rp] }]))
  | other {req : Request} {c : I32} {b : Bytes} (h : aside req = true) : Pieces s1 s2 (.answered req c b) [.other]

/-- The parts of what is done between the states `s1` and `s2`: a Fetch request has one part; any other request has one part per partition that it names, in any order, and so has
Fetch if a partition that it names is created and written to meanwhile; a post has one part if the partition exists, and else first creates it; CreatePartitionTopics creates one
partition after the other. -/
inductive Parts (s1 s2 : Sys) : Happening → List Use → Prop where
  | request {req : Request} {c : I32} {b : Bytes} {us us' : List Use} (h : Pieces s1 s2 (.answered req c b) us) (hp : us'.Perm us) : Parts s1 s2 (.answered req c b) us'
  | post {call : PostCall} (h : ¬ (s1.view 0).hasPartition call.topic (BitVec.ofInt 32 call.partition)) :
      Parts s1 s2 (.posted call) [.create call.partition [call.topic], .post call.topic call.partition call.key call.value call.extended]
  | add {call : PostCall} (h : (s1.view 0).hasPartition call.topic (BitVec.ofInt 32 call.partition)) :
      Parts s1 s2 (.posted call) [.post call.topic call.partition call.key call.value call.extended]
  | create (n : Int) (topics : List Bytes) : Parts s1 s2 (.created n topics) (topics.map fun t => .create n [t])
  | reset (topic : Bytes) (n : Int) (group : Bytes) (o : I64) : Parts s1 s2 (.reset topic n group o) [.reset topic n group o]

/-- The operations of a run: each goroutine does one thing after the other, and all changes of the data are parts of these operations. -/
structure Operations {sv : Server} {clock : Int} (H : Timeline sv clock) (ops : List Operation) : Prop where
  inside : ∀ o ∈ ops, o.In H
  apart : ops.Pairwise fun o o' => o.who = o'.who → o.finish ≤ o'.start ∨ o'.finish ≤ o.start
  all : ∀ i, i < H.length → ∀ x, changedBy (H.ev i) = some x → ∃ o ∈ ops, o.who = x ∧ o.start ≤ i ∧ i < o.finish

/-! ### Time -/

section
variable {sv : Server} {clock : Int} (H : Timeline sv clock)

theorem Timeline.slice_self (a : Nat) : H.slice a a = [] := by simp [Timeline.slice]

theorem Timeline.slice_succ {a b : Nat} (h : a < b) : H.slice a b = H.ev a :: H.slice (a + 1) b := by
  unfold Timeline.slice
  obtain ⟨d, rfl⟩ : ∃ d, b = a + 1 + d := ⟨b - (a + 1), by omega⟩
  rw [show a + 1 + d - a = d + 1 by omega, show a + 1 + d - (a + 1) = d by omega, List.range'_succ, List.map_cons]

theorem Timeline.run_add (a d : Nat) (h : a + d ≤ H.length) : Sys.Run (H.st a) (H.slice a (a + d)) (H.st (a + d)) := by
  induction d generalizing a with
  | zero => rw [Nat.add_zero, H.slice_self]; exact .nil _
  | succ d ih =>
    rw [H.slice_succ (by omega), show a + (d + 1) = a + 1 + d by omega]
    exact .cons (H.step a (by omega)) (ih (a + 1) (by omega))

theorem Timeline.run {a b : Nat} (h : a ≤ b) (hb : b ≤ H.length) : Sys.Run (H.st a) (H.slice a b) (H.st b) := by
  obtain ⟨d, rfl⟩ : ∃ d, b = a + d := ⟨b - a, by omega⟩
  exact H.run_add a d hb

theorem Timeline.slice_append {a b c : Nat} (h : a ≤ b) (h' : b ≤ c) : H.slice a c = H.slice a b ++ H.slice b c := by
  unfold Timeline.slice
  rw [← List.map_append]
  congr 1
  obtain ⟨d, rfl⟩ : ∃ d, b = a + d := ⟨b - a, by omega⟩
  obtain ⟨e, rfl⟩ : ∃ e, c = a + d + e := ⟨c - (a + d), by omega⟩
  rw [show a + d + e - a = d + e by omega, show a + d - a = d by omega, show a + d + e - (a + d) = e by omega, List.range'_append_1]

theorem Timeline.slice_length (a b : Nat) : (H.slice a b).length = b - a := by simp [Timeline.slice]

theorem Timeline.slice_split {a b : Nat} {ta tb : List SEv} (h : a ≤ b) (e : H.slice a b = ta ++ tb) :
    a + ta.length ≤ b ∧ ta = H.slice a (a + ta.length) ∧ tb = H.slice (a + ta.length) b := by
  have hl := congrArg List.length e
  rw [H.slice_length, List.length_append] at hl
  have h1 : a + ta.length ≤ b := by omega
  rw [H.slice_append (Nat.le_add_right a ta.length) h1] at e
  obtain ⟨e1, e2⟩ := List.append_inj e (by rw [H.slice_length]; omega)
  exact ⟨h1, e1.symm, e2.symm⟩

/-- The store after a step is determined by the event. -/
theorem step_ds {s s' x x' : Sys} {e : SEv} (h : Sys.Step s e s') (h' : Sys.Step x e x') (hd : s.ds = x.ds) : s'.ds = x'.ds := by
  have act : ∀ {a : Act} {w1 w1' w2 w2' : World} {r : a.Resp}, a.step w1 r w1' → a.step w2 r w2' → w1.ds = w2.ds → w1'.ds = w2'.ds := by
    intro a w1 w1' w2 w2' r h1 h2 e
    cases a <;> simp only [Act.step] at h1 h2 <;> grind [World.withDs]
  cases h with
  | life hn =>
    cases h' with
    | life hn' => rw [(next_data hn).2.1, (next_data hn').2.1, hd]
  | conn _ _ ha =>
    cases h' with
    | conn _ _ ha' => exact act ha ha' hd
  | unroll =>
    cases h' with
    | unroll => exact hd
  | call _ ha =>
    cases h' with
    | call _ ha' => exact act ha ha' hd
  | tick =>
    cases h' with
    | tick => exact hd

theorem run_ds {s s' x x' : Sys} {tr : List SEv} (h : Sys.Run s tr s') (h' : Sys.Run x tr x') (hd : s.ds = x.ds) : s'.ds = x'.ds := by
  induction h generalizing x with
  | nil => cases h'; exact hd
  | cons h _ ih =>
    cases h' with
    | cons h1 h2 => exact ih h2 (step_ds h h1 hd)

/-- What is true of the data sometime between two states is true of the data in one of the states between them. -/
theorem Timeline.sometime {a b : Nat} (h : a ≤ b) (hb : b ≤ H.length) {P : Sys → Prop} (hs : Sometime (H.st a) (H.slice a b) (H.st b) P) :
    ∃ m sm, a ≤ m ∧ m ≤ b ∧ data (H.st m) = data sm ∧ P sm := by
  obtain ⟨ta, tb, sm, e, h1, h2, h3⟩ := hs
  obtain ⟨e1, e2, _⟩ := H.slice_split h e
  refine ⟨a + ta.length, sm, Nat.le_add_right .., e1, ?_, h3⟩
  have hr := H.run (Nat.le_add_right a ta.length) (by omega)
  rw [← e2] at hr
  exact (sameStore (run_ds h1 hr rfl).symm).data
end

/-! ### Requests that read one partition -/

/-- What a request sees of a partition at some moment is in the data at some moment. -/
theorem read_moment {tr : List SEv} {s1 s2 : Sys} (hr : Sys.Run s1 tr s2) {ctx : Nat} {es u0 u1 : List Ev} {wm : World} (he : effects es = effectsOf tr) (e : es = u0 ++ u1)
    (h0 : Steps (s1.view ctx) u0 wm) {t : Bytes} {p : I32} (hp : (s2.view 0).hasPartition t p) :
    Sometime s1 tr s2 fun sm => (data sm).log t p = some (wm.log t p) ∧ ∀ g, (data sm).offset t p g = wm.committed t p g := by
  obtain ⟨ta, tb, sm, e1, h1, h2, h3, h4, h5⟩ := sometime hr (effects u0).length t p
  have hx : (effectsOf tr).take (effects u0).length = effects u0 := by
    rw [← he, e, effects_append, List.take_left']; rfl
  rw [hx] at h4 h5
  refine ⟨ta, tb, sm, e1, h1, h2, ?_, fun g => ?_⟩
  · rw [data_some (h3 hp), h4, h0.log]; rfl
  · refine BitVec.eq_of_toInt_eq ?_
    rw [h0.committed]
    exact h5 g

/-- A moment at which the machine, with the data as it is, gives the answer that is received. -/
def ReadAt (s1 : Sys) (tr : List SEv) (s2 : Sys) (u : Use) : Prop := Sometime s1 tr s2 fun sm => u.Step (data sm) s1.clock (data sm) s2.clock

theorem fetch_moment {sv : Server} {clock : Int} {k : Nat} {q : FetchRequest} {c : I32} {t1 tr : List SEv} {s1 s2 : Sys}
    (h : Exchange sv clock k (.fetch q) c t1 s1 tr s2) (single : (∀ t ∈ q.topics, ∃ p, t.partitions = [p]) ∨ Steady s1 s2 q) (hs : Roomy k tr s2) :
    ∃ us, Pieces s1 s2 (.answered (.fetch q) c (sent (actsOf k tr))) us ∧ ∀ u ∈ us, ReadAt s1 tr s2 u := by
  by_cases hw : Steady s1 s2 q
  · obtain ⟨x, h1, ta, tb, sm, e, r1, r2, h2⟩ := C96_reply_partial h hs.records hs.response hw
    refine ⟨_, .whole hw h1, fun u hu => ?_⟩
    cases List.mem_singleton.1 hu
    exact ⟨ta, tb, sm, e, r1, r2, h2, rfl⟩
  have single := single.resolve_right hw
  obtain ⟨x, h1, h2⟩ := C73_fetch_partial h single hs.records hs.response
  refine ⟨_, .fetch hw h1 h2.length_eq, ?_⟩
  intro u hu
  obtain ⟨⟨qt, y⟩, hz, rfl⟩ := List.mem_map.1 hu
  unfold seen at hz
  rw [List.zip_map_right] at hz
  obtain ⟨⟨qt', rt⟩, hz', e⟩ := List.mem_map.1 hz
  clear hz
  cases e
  have hz := hz'
  obtain ⟨par, hpar⟩ := single _ (List.of_mem_zip hz).1
  obtain ⟨e1, e2⟩ := (List.forall₂_iff_zip.1 h2).2 hz
  dsimp only
  rw [hpar] at e2
  obtain ⟨fp, fs, ⟨g1, g2, g3, g4⟩, e3, e4⟩ := List.forall₂_cons_left_iff.1 e2
  cases e3
  obtain ⟨ta, tb, sm, e, m1, m2, m3⟩ := g4
  refine ⟨ta, tb, sm, e, m1, m2, ?_, rfl⟩
  obtain ⟨name, ps⟩ := rt
  obtain ⟨t, pars⟩ := qt'
  dsimp only at hpar e1 e4 m3
  subst hpar e1 e4
  have hr : (data sm).records name par = ((sm.view 0).log name par.partition).drop par.fetchOffset.toInt.toNat := by
    unfold Data.records; rw [data_log]
  simp only [Prod.map, id, fetchReply, fetchNamed, List.map_cons, List.map_nil, List.zipIdx_cons, List.zipIdx_nil, List.flatMap_cons, List.flatMap_nil, List.append_nil,
    List.getElem?_cons_zero, Option.getD_some]
  rw [g1, g2, g3, labelled_eq m3]
  unfold Data.messages Data.highWatermark
  rw [hr, m3.1]

theorem listOffsets_moment {sv : Server} {clock : Int} {k : Nat} {q : ListOffsetsRequest} {c : I32} {t1 tr : List SEv} {s1 s2 : Sys}
    (h : Exchange sv clock k (.listOffsets q) c t1 s1 tr s2) :
    ∃ us, Pieces s1 s2 (.answered (.listOffsets q) c (sent (actsOf k tr))) us ∧ ∀ u ∈ us, ReadAt s1 tr s2 u := by
  obtain ⟨ctx, es, h1, h2, h3⟩ := h.run
  obtain ⟨_, _, _, hd⟩ := h.serves
  obtain ⟨x, ta, tb, w1, rfl, g1, g2, g3⟩ := listOffsets_request h1
  refine ⟨_, .listOffsets (by rw [← h2]; exact g3) ((listOffsets_answers g1).imp fun _ _ h => h.2.length_eq), ?_⟩
  have hc : s1.clock ≤ s2.clock := (g1.steps.append g2).clock
  intro u hu
  obtain ⟨⟨qt, rt⟩, hz, hu⟩ := List.mem_flatMap.1 hu
  obtain ⟨⟨par, rp⟩, hy, rfl⟩ := List.mem_map.1 hu
  obtain ⟨e1, e2⟩ := (List.forall₂_iff_zip.1 (listOffsets_answers g1)).2 hz
  have ha := (List.forall₂_iff_zip.1 e2).2 hy
  obtain ⟨t, pars⟩ := qt
  dsimp only at *
  have key : Sometime s1 tr s2 fun sm => ∃ ns : Int, s1.clock ≤ ns ∧ ns ≤ s2.clock ∧ rp = listReply ((data sm).log t par.partitionIndex) (BitVec.ofInt 64 (ns / 1000000)) par := by
    obtain ⟨f1, f2⟩ := ListAnswered.lift (t0 := []) (.nil _) g2 ha
    rw [List.nil_append] at f2
    rcases f2 with ⟨f2, f3, f4, u0, u1, wm, e, m0, m1, f5⟩ | ⟨f2, u0, u1, wm, e, m0, m1, f5, f6, f7, f8⟩
    · refine ⟨[], tr, s1, rfl, .nil _, hd.during, s1.clock, Int.le_refl _, hc, ?_⟩
      rw [data_none (fun h => f5 (m0.hasPartition (show (s1.view ctx).hasPartition _ _ from h)))]
      cases rp; cases f1; cases f2; cases f3; cases f4; rfl
    · obtain ⟨va, vb, sm, v1, v2, v3, v4, _⟩ := read_moment hd.during h3 e m0 (t := t) (p := par.partitionIndex) (m1.hasPartition f5)
      refine ⟨va, vb, sm, v1, v2, v3, ?_⟩
      dsimp only
      rw [v4]
      unfold listReply
      dsimp only at *
      by_cases c1 : par.timestamp.toInt = -1
      · obtain ⟨f9, ns, f10, f11, f12⟩ := f6 c1
        refine ⟨ns, f10, f11, ?_⟩
        rw [if_pos c1]
        cases rp; cases f1; cases f2; cases f9; cases f12; rfl
      · refine ⟨s1.clock, Int.le_refl _, hc, ?_⟩
        rw [if_neg c1]
        by_cases c2 : par.timestamp.toInt = -2
        · obtain ⟨f9, f10⟩ := f7 c2
          rw [if_pos c2]
          unfold stamp
          cases rp; cases f1; cases f2; cases f9; cases f10; rfl
        · obtain ⟨o, f9, f10, f11, f12⟩ := f8 c1 c2
          rw [if_neg c2]
          obtain rfl := C30_unique f10 (timePosition_spec _ _)
          have f13 : rp.timestamp = stamp (wm.log t par.partitionIndex) (timePosition (wm.log t par.partitionIndex) par.timestamp.toInt - 1) := by
            have hle := f10.1
            generalize timePosition (wm.log t par.partitionIndex) par.timestamp.toInt = o at *
            unfold stamp
            cases o with
            | zero => exact f11 rfl
            | succ j =>
              have := List.getElem?_eq_getElem (l := wm.log t par.partitionIndex) (i := j) (by omega)
              rw [f12 j _ rfl this, Nat.add_sub_cancel, this]; rfl
          cases rp; cases f1; cases f2; cases f9; cases f13; rfl
  obtain ⟨va, vb, sm, v1, v2, v3, v4⟩ := key
  exact ⟨va, vb, sm, v1, v2, v3, rfl, .cons ⟨e1, .cons v4 .nil⟩ .nil⟩

/-- The entries of the answer, one for each partition that has one. -/
theorem entries {β : Type} {R : Bytes × I32 → β → Prop} {fl : List ((Bytes × I32) × Bool)} {L : Bytes → List β}
    (h : ∀ n, List.Forall₂ R ((fl.filter fun x => x.2 && decide (x.1.1 = n)).map (·.1)) (L n)) :
    ∃ os : List (Option β), os.length = fl.length ∧ (∀ n, L n = ((fl.map (·.1)).zip os).filterMap fun z => if z.1.1 = n then z.2 else none) ∧
      List.Forall₂ (fun x o => (x.2 = false ∧ o = none) ∨ (x.2 = true ∧ ∃ b, o = some b ∧ R x.1 b)) fl os := by
  induction fl generalizing L with
  | nil => exact ⟨[], rfl, fun n => List.forall₂_nil_left_iff.1 (h n), .nil⟩
  | cons x fl ih =>
    obtain ⟨x, f⟩ := x
    cases f with
    | false =>
      obtain ⟨os, h1, h2, h3⟩ := ih (L := L) fun n => by simpa using h n
      refine ⟨none :: os, by simp [h1], fun n => ?_, .cons (.inl ⟨rfl, rfl⟩) h3⟩
      rw [h2 n]
      simp
    | true =>
      have hx := h x.1
      simp only [Bool.true_and, decide_true, List.filter_cons_of_pos, List.map_cons] at hx
      obtain ⟨b, rest, hb, hrest, e⟩ := List.forall₂_cons_left_iff.1 hx
      obtain ⟨os, h1, h2, h3⟩ := ih (L := fun n => if n = x.1 then rest else L n) fun n => by
        by_cases en : n = x.1
        · subst en
          simpa using hrest
        · have := h n
          have en' : ¬ x.1 = n := fun h => en h.symm
          rw [if_neg en]
          simpa [en'] using this
      refine ⟨some b :: os, by simp [h1], fun n => ?_, .cons (.inr ⟨rfl, b, rfl, hb⟩) h3⟩
      have h2 := h2 n
      rw [List.map_cons, List.zip_cons_cons, List.filterMap_cons]
      dsimp only
      by_cases en : n = x.1
      · subst en
        rw [if_pos rfl] at h2 ⊢
        rw [e, h2]
      · have en' : ¬ x.1 = n := fun h => en h.symm
        rw [if_neg en] at h2
        rw [if_neg en']
        exact h2

theorem offsetFetch_moment {sv : Server} {clock : Int} {k : Nat} {q : OffsetFetchRequest} {c : I32} {t1 tr : List SEv} {s1 s2 : Sys}
    (h : Exchange sv clock k (.offsetFetch q) c t1 s1 tr s2) :
    ∃ us, Pieces s1 s2 (.answered (.offsetFetch q) c (sent (actsOf k tr))) us ∧ ∀ u ∈ us, ReadAt s1 tr s2 u := by
  obtain ⟨ctx, es, h1, h2, h3⟩ := h.run
  obtain ⟨_, _, _, hs⟩ := h.serves
  obtain ⟨s0, r0, r1⟩ := hs.begins
  obtain ⟨hist, hr, _⟩ := reachedBy (r0.append (.cons r1 (.nil _))) ctx
  obtain ⟨x, ta, tb, w1, rfl, h4, h5, h6⟩ := offsetFetch_request hr h1
  obtain ⟨fl, f1, f2, f3, f4, f5⟩ := C26_offset_fetch_exact hr h4
  obtain ⟨os, o1, o2, o3⟩ := entries (R := OffsetReported (s1.view ctx) ta w1 q.groupId) (fl := fl) (L := fun n => (x.topics.filter fun t => t.name = n).flatMap (·.partitions)) fun n => by
    by_cases hn : n ∈ x.topics.map (·.name)
    · obtain ⟨rt, hrt, rfl⟩ := List.mem_map.1 hn
      have : (x.topics.filter fun t => t.name = rt.name) = [rt] := by
        clear f4 f5 h6 h4 hn
        generalize x.topics = l at *
        induction l with
        | nil => cases hrt
        | cons a l ih =>
          rw [List.map_cons, List.nodup_cons] at f3
          rcases List.mem_cons.1 hrt with rfl | hrt
          · rw [List.filter_cons_of_pos (by simp), List.filter_eq_nil_iff.2]
            intro y hy hn
            exact f3.1 (List.mem_map.2 ⟨y, hy, by simpa using hn⟩)
          · rw [List.filter_cons_of_neg, ih f3.2 hrt]
            simp only [decide_eq_true_eq]
            intro hn
            exact f3.1 (List.mem_map.2 ⟨rt, hrt, hn.symm⟩)
      rw [this]
      simpa using f5 rt hrt
    · have e1 : (x.topics.filter fun t => t.name = n) = [] := by
        rw [List.filter_eq_nil_iff]
        intro y hy hyn
        exact hn (List.mem_map.2 ⟨y, hy, by simpa using hyn⟩)
      have e2 : (fl.filter fun x => x.2 && decide (x.1.1 = n)) = [] := by
        rw [List.filter_eq_nil_iff]
        intro y hy hyn
        simp only [Bool.and_eq_true, decide_eq_true_eq] at hyn
        exact hn ((f4 n).2 ⟨y, hy, hyn⟩)
      rw [e1, e2]
      exact .nil
  rw [f1] at o2
  refine ⟨_, .offsetFetch (by rw [← h2]; exact h6) os (by rw [o1, ← f1, List.length_map]) f3 o2, ?_⟩
  have reply : ∀ (t : Bytes) (p : I32) (d : Data) n, offsetReply d { q with topics := [⟨t, [p]⟩] } n = if t = n ∧ (d.log n p).isSome then
      [{ partitionIndex := p, committedOffset := d.offset n p q.groupId, metadata := none, errorCode := 0 }] else [] := by
    intro t p d n
    unfold offsetReply
    by_cases e : t = n
    · subst e
      cases h : (d.log t p).isSome <;> simp [h]
    · simp [e]
  intro u hu
  obtain ⟨⟨⟨t, p⟩, o⟩, hz, rfl⟩ := List.mem_map.1 hu
  rw [← f1, List.zip_map_left] at hz
  obtain ⟨⟨⟨y, f⟩, o'⟩, hz', e⟩ := List.mem_map.1 hz
  clear hz
  cases e
  have hz := hz'
  obtain ⟨u0, u1, wm, e, m0, m1, hiff⟩ := f2 _ (List.of_mem_zip hz).1
  dsimp only at *
  rcases (List.forall₂_iff_zip.1 o3).2 hz with ⟨rfl, rfl⟩ | ⟨rfl, rp, rfl, a1, a2, a3, v0, v1, wv, ev, n0, n1, a4⟩
  · refine ⟨[], tr, s1, rfl, .nil _, hs.during, rfl, by simp, fun n => ?_, fun rt hrt => by cases hrt⟩
    rw [reply]
    by_cases e : t = n
    · subst e
      rw [data_none fun h => absurd (hiff.2 (m0.hasPartition (show (s1.view ctx).hasPartition t p from h))) (by simp)]
      simp
    · simp [e]
  · have hp2 : (s2.view 0).hasPartition t p := h5.hasPartition (m1.hasPartition (hiff.1 rfl))
    obtain ⟨va, vb, sm, b1, b2, b3, b4, b5⟩ := read_moment hs.during h3 (u0 := v0) (u1 := v1 ++ tb) (by rw [ev, List.append_assoc]) n0 (t := t) (p := p) hp2
    refine ⟨va, vb, sm, b1, b2, b3, rfl, by simp, fun n => ?_, fun rt' hrt' => ?_⟩
    · rw [reply]
      by_cases e : t = n
      · subst e
        simp [b4]
      · have e' : ¬ n = t := fun h => e h.symm
        simp [e, e']
    · cases List.mem_singleton.1 hrt'
      dsimp only
      rw [reply, if_pos ⟨rfl, by rw [b4]; rfl⟩, b5]
      obtain ⟨i, o, m, e⟩ := rp
      cases a1; cases a2; cases a3; cases a4; rfl

/-! ### Changes of the data, one by one -/

/-- The step is a change of the data by `x`. -/
def mine (x : Who) (e : SEv) : Option REv := match e with
  | .conn k a r => if x = .conn k ∧ changes a = true then some ⟨a, r⟩ else none
  | .call i a r => if x = .caller i ∧ changes a = true then some ⟨a, r⟩ else none
  | _ => none

theorem mine_some {x : Who} {e : SEv} : (mine x e).isSome = true ↔ changedBy e = some x := by
  cases e with
  | conn k a r =>
    unfold mine changedBy
    by_cases h : changes a = true
    · by_cases hx : x = .conn k
      · simp [h, hx]
      · simp [h, hx, Ne.symm hx]
    · simp [h]
  | call k a r =>
    unfold mine changedBy
    by_cases h : changes a = true
    · by_cases hx : x = .caller k
      · simp [h, hx]
      · simp [h, hx, Ne.symm hx]
    · simp [h]
  | _ => simp [mine, changedBy]

theorem mine_conn (k : Nat) (tr : List SEv) : tr.filterMap (mine (.conn k)) = (actsOf k tr).filter fun e => changes e.act := by
  induction tr with
  | nil => rfl
  | cons e tr ih =>
    unfold actsOf at *
    cases e with
    | conn c a r =>
      rw [List.filterMap_cons, List.filterMap_cons]
      by_cases e : c = k
      · subst e
        by_cases h : changes a = true
        · simp [mine, h, ih]
        · simp [mine, h, ih]
      · have : ¬ k = c := fun h => e h.symm
        simp [mine, e, this, ih]
    | _ => exact ih

theorem mine_caller (k : Nat) (tr : List SEv) : tr.filterMap (mine (.caller k)) = (KM.callsOf k tr).filter fun e => changes e.act := by
  induction tr with
  | nil => rfl
  | cons e tr ih =>
    unfold KM.callsOf at *
    cases e with
    | call c a r =>
      rw [List.filterMap_cons, List.filterMap_cons]
      by_cases e : c = k
      · subst e
        by_cases h : changes a = true
        · simp [mine, h, ih]
        · simp [mine, h, ih]
      · have : ¬ k = c := fun h => e h.symm
        simp [mine, e, this, ih]
    | _ => exact ih

theorem mine_conn_inv {k : Nat} {e : SEv} {a : Act} {r : a.Resp} (h : mine (.conn k) e = some ⟨a, r⟩) : e = .conn k a r := by
  cases e with
  | conn c a' r' =>
    simp only [mine, Who.conn.injEq] at h
    split at h
    · next hk => cases h; rw [hk.1]
    · cases h
  | call c a' r' => simp [mine] at h
  | _ => cases h

theorem mine_caller_inv {k : Nat} {e : SEv} {a : Act} {r : a.Resp} (h : mine (.caller k) e = some ⟨a, r⟩) : e = .call k a r := by
  cases e with
  | call c a' r' =>
    simp only [mine, Who.caller.injEq] at h
    split at h
    · next hk => cases h; rw [hk.1]
    · cases h
  | conn c a' r' => simp [mine] at h
  | _ => cases h

/-- The positions of the events that a function selects. -/
theorem positions {γ : Type} (ev : Nat → SEv) (f : SEv → Option γ) (a d : Nat) :
    ∃ idx : List Nat, idx.Pairwise (· < ·) ∧ (∀ i ∈ idx, a ≤ i ∧ i < a + d ∧ (f (ev i)).isSome = true) ∧
      List.Forall₂ (fun i x => f (ev i) = some x) idx (((List.range' a d).map ev).filterMap f) ∧ ∀ i, a ≤ i → i < a + d → (f (ev i)).isSome = true → i ∈ idx := by
  refine ⟨(List.range' a d).filter fun i => (f (ev i)).isSome, List.Pairwise.filter _ List.pairwise_lt_range', ?_, ?_, ?_⟩
  · intro i hi
    obtain ⟨h1, h2⟩ := List.mem_filter.1 hi
    obtain ⟨h3, h4⟩ := List.mem_range'_1.1 h1
    exact ⟨h3, h4, h2⟩
  · generalize List.range' a d = l
    induction l with
    | nil => exact .nil
    | cons i l ih =>
      rw [List.map_cons, List.filterMap_cons, List.filter_cons]
      cases e : f (ev i) with
      | none => simpa using ih
      | some x =>
        rw [if_pos (show (some x).isSome = true from rfl)]
        exact .cons e ih
  · intro i h1 h2 h3
    exact List.mem_filter.2 ⟨List.mem_range'_1.2 ⟨h1, h2⟩, h3⟩

theorem step_exist_iff {s s' : Sys} {e : SEv} (h : Sys.Step s e s') (hn : ∀ t p, (∀ k r, e ≠ .conn k (.createPartition t p) r) ∧ ∀ i r, e ≠ .call i (.createPartition t p) r)
    (t : Bytes) (p : I32) : (s'.view 0).hasPartition t p ↔ ((data s).log t p).isSome := by
  rw [Option.isSome_iff_ne_none, data_ne]
  constructor
  · intro hp
    rcases step_exists h hp with h1 | ⟨k, r, h1⟩ | ⟨k, r, h1⟩
    · exact h1
    · exact absurd h1 ((hn t p).1 k r)
    · exact absurd h1 ((hn t p).2 k r)
  · exact fun hp => (C46_kept (.cons h (.nil _))).2.2.2 t p hp

/-- A partition is created. -/
theorem create_data {i : Nat} {s s' : Sys} {t : Bytes} {p : I32} (h : Sys.Step s (.call i (.createPartition t p) ()) s') : data s' = (data s).create p [t] := by
  have hr : Sys.Run s [.call i (.createPartition t p) ()] s' := .cons h (.nil _)
  obtain ⟨k1, k2, _, k4⟩ := C46_kept hr
  have he : effectsOf [.call i (.createPartition t p) ()] = [] := rfl
  have hnew : ∀ t' p', (s'.view 0).hasPartition t' p' ↔ ((t' = t ∧ p' = p) ∨ (s.view 0).hasPartition t' p') := by
    intro t' p'
    constructor
    · intro hp
      rcases step_exists h hp with h1 | ⟨k, r, h1⟩ | ⟨k, r, h1⟩
      · exact .inr h1
      · cases h1
      · cases h1; exact .inl ⟨rfl, rfl⟩
    · rintro (⟨rfl, rfl⟩ | h1)
      · cases h with
        | call _ ha =>
          obtain ⟨s4, rfl⟩ := ha
          show ((Store.createPartition _ t' p').part? t' p').isSome
          rw [Store.part?_createPartition _ _ _ _ _ s4, if_pos ⟨rfl, rfl⟩]; rfl
      · exact k4 _ _ h1
  refine data_eq hr (fun t' p' => ?_) (fun t' p' hp => ?_) fun t' p' g => ?_
  · rw [hnew]
    unfold Data.create
    dsimp only
    by_cases e : t' = t ∧ p' = p
    · simp [e]
    · rw [if_neg (by simpa using e), Option.isSome_iff_ne_none, data_ne]
      exact ⟨fun h => h.resolve_left e, .inr⟩
  · unfold Data.create
    dsimp only
    rw [he, show Spec.posts ([] : List Eff) t' p' = [] from rfl, List.append_nil]
    by_cases e : t' = t ∧ p' = p
    · rw [if_pos (by simpa using e), data_log]
    · rw [if_neg (by simpa using e), data_some (((hnew t' p').1 hp).resolve_left e)]
  · rw [he]; rfl

/-- A record is added. -/
theorem post_data {i : Nat} {s s' : Sys} {t : Bytes} {p : I32} {r : Record} (h : Sys.Step s (.call i (.post t p r) ()) s') : data s' = (data s).post t p r := by
  have hr : Sys.Run s [.call i (.post t p r) ()] s' := .cons h (.nil _)
  have he : effectsOf [.call i (.post t p r) ()] = [.post t p r] := rfl
  have hx : (s.view 0).hasPartition t p := by
    cases h with
    | call _ ha => exact ha.1
  have hnew := step_exist_iff h fun _ _ => ⟨nofun, nofun⟩
  refine data_eq hr (fun t' p' => ?_) (fun t' p' hp => ?_) fun t' p' g => ?_
  · rw [hnew]
    unfold Data.post
    dsimp only
    by_cases e : t' = t ∧ p' = p
    · rw [e.1, e.2, data_some hx]; simp
    · rw [if_neg e]
  · unfold Data.post
    dsimp only
    rw [he]
    by_cases e : t' = t ∧ p' = p
    · rw [if_pos e, e.1, e.2, data_log]
      simp [Spec.posts]
    · rw [hnew, Option.isSome_iff_ne_none, data_ne] at hp
      rw [if_neg e, data_some hp]
      have : ¬ (t = t' ∧ p = p') := fun h => e ⟨h.1.symm, h.2.symm⟩
      simp [Spec.posts, this]
  · rw [he]; rfl

/-- An offset is set. -/
theorem reset_data {i : Nat} {s s' : Sys} {t : Bytes} {p : I32} {g : Bytes} {o : I64} (h : Sys.Step s (.call i (.setOffset t p g o) ()) s') :
    data s' = (data s).reset t p g o := by
  have hr : Sys.Run s [.call i (.setOffset t p g o) ()] s' := .cons h (.nil _)
  have he : effectsOf [.call i (.setOffset t p g o) ()] = [.reset t p g o.toInt] := rfl
  have hx : (s.view 0).hasPartition t p := by
    cases h with
    | call _ ha => exact ha.1
  have hnew := step_exist_iff h fun _ _ => ⟨nofun, nofun⟩
  refine data_eq hr (fun t' p' => hnew t' p') (fun t' p' hp => ?_) fun t' p' g' => ?_
  · rw [hnew, Option.isSome_iff_ne_none, data_ne] at hp
    rw [he]
    show (data s).log t' p' = _
    rw [data_some hp]
    simp [Spec.posts]
  · rw [he]
    unfold Data.reset
    dsimp only
    rw [data_some hx]
    by_cases e : t' = t ∧ p' = p ∧ g' = g
    · simp [e, Spec.committedFrom]
    · have : ¬ (t = t' ∧ p = p' ∧ g = g') := fun h => e ⟨h.1.symm, h.2.1.symm, h.2.2.symm⟩
      simp only [Spec.committedFrom, this, e, and_false, if_false]
      rfl

/-- An offset is committed. -/
theorem commit_data {k : Nat} {s s' : Sys} {t : Bytes} {par : CommitPartition} {q : CommitRequest} (hq : q.topics = [⟨t, [par]⟩])
    (h : Sys.Step s (.conn k (.commit t par.partitionIndex q.groupId par.committedOffset) ()) s') :
    data s' = (data s).commit q ∧ (s.view 0).hasPartition t par.partitionIndex := by
  have hr : Sys.Run s [.conn k (.commit t par.partitionIndex q.groupId par.committedOffset) ()] s' := .cons h (.nil _)
  have he : effectsOf [.conn k (.commit t par.partitionIndex q.groupId par.committedOffset) ()] = [.commit t par.partitionIndex q.groupId par.committedOffset.toInt] := rfl
  have hx : (s.view 0).hasPartition t par.partitionIndex := by
    cases h with
    | conn _ _ ha => exact ha.1
  have hnew := step_exist_iff h fun _ _ => ⟨nofun, nofun⟩
  refine ⟨data_eq hr (fun t' p' => hnew t' p') (fun t' p' hp => ?_) fun t' p' g' => ?_, hx⟩
  · rw [hnew, Option.isSome_iff_ne_none, data_ne] at hp
    rw [he]
    show (data s).log t' p' = _
    rw [data_some hp]
    simp [Spec.posts]
  · rw [he]
    have hacc : accepted q (commitReply (data s) q) = [.commit t par.partitionIndex q.groupId par.committedOffset.toInt] := by
      simp [accepted, commitReply, hq, data_some hx]
    have hn := accepted_next (data s) q t' p' g'
    rw [hacc] at hn
    show (BitVec.ofInt 64 (commitNext (data s) q t' p' g')).toInt = _
    rw [← hn]
    show (BitVec.ofInt 64 (Spec.committedFrom ((s.view 0).committed t' p' g').toInt _ t' p' g')).toInt = _
    simp only [Spec.committedFrom]
    have range := fun x : I64 => (⟨BitVec.le_toInt x, BitVec.toInt_lt (x := x)⟩ : _ ∧ _)
    have r1 := range ((s.view 0).committed t' p' g')
    have r2 := range par.committedOffset
    split
    · rw [BitVec.toInt_ofInt_eq_self (by omega) (by omega) (by omega)]
    · rw [BitVec.ofInt_toInt]

/-! ### The places of the parts of an operation -/

section
variable {sv : Server} {clock : Int} (H : Timeline sv clock)

/-- The use happens at state `m` (`2 * m`), or with the event from state `m` to the next (`2 * m + 1`), and is then a step of the machine. -/
def ItemOk (o : Operation) (x : Nat × Use) : Prop :=
  (∃ m, x.1 = 2 * m ∧ o.start ≤ m ∧ m ≤ o.finish ∧ x.2.Step (data (H.st m)) (H.st o.start).clock (data (H.st m)) (H.st o.finish).clock) ∨
  ∃ m, x.1 = 2 * m + 1 ∧ o.start ≤ m ∧ m < o.finish ∧ changedBy (H.ev m) = some o.who ∧
    x.2.Step (data (H.st m)) (H.st o.start).clock (data (H.st (m + 1))) (H.st o.finish).clock

/-- The parts of an operation, with their places. -/
structure Placed (o : Operation) (l : List (Nat × Use)) : Prop where
  sorted : (l.map (·.1)).Pairwise fun x y => x ≤ y ∧ (x = y → x % 2 = 0)
  ok : ∀ x ∈ l, ItemOk H o x
  all : ∀ i, o.start ≤ i → i < o.finish → changedBy (H.ev i) = some o.who → 2 * i + 1 ∈ l.map (·.1) ∨ data (H.st (i + 1)) = data (H.st i)

theorem forall₂_comp {α β γ : Type} {R : α → β → Prop} {S : β → γ → Prop} {as : List α} {bs : List β} {cs : List γ} (h : List.Forall₂ R as bs) (h' : List.Forall₂ S bs cs) :
    List.Forall₂ (fun a c => ∃ b, R a b ∧ S b c) as cs := by
  induction h generalizing cs with
  | nil => cases h'; exact .nil
  | cons h _ ih =>
    cases h' with
    | cons h1 h2 => exact .cons ⟨_, h, h1⟩ (ih h2)

theorem placed_writes {o : Operation} (hab : o.start ≤ o.finish) {us : List Use}
    (h : List.Forall₂ (fun (x : REv) (u : Use) => ∀ i, o.start ≤ i → i < o.finish → mine o.who (H.ev i) = some x →
      u.Step (data (H.st i)) (H.st o.start).clock (data (H.st (i + 1))) (H.st o.finish).clock) ((H.slice o.start o.finish).filterMap (mine o.who)) us) :
    ∃ l, Placed H o l ∧ l.map (·.2) = us := by
  obtain ⟨idx, h1, h2, h3, h4⟩ := positions H.ev (mine o.who) o.start (o.finish - o.start)
  have hz := List.forall₂_iff_zip.1 (forall₂_comp h3 h)
  have e : o.start + (o.finish - o.start) = o.finish := by omega
  rw [e] at h2 h4
  have e1 : ((idx.zip us).map fun x => (2 * x.1 + 1, x.2)).map (·.1) = idx.map fun i => 2 * i + 1 := by
    rw [List.map_map]
    conv => rhs; rw [← List.map_fst_zip (l₁ := idx) (l₂ := us) (Nat.le_of_eq hz.1), List.map_map]
    rfl
  refine ⟨(idx.zip us).map fun x => (2 * x.1 + 1, x.2), ⟨?_, ?_, ?_⟩, ?_⟩
  · rw [e1, List.pairwise_map]
    exact h1.imp fun h => ⟨by omega, by omega⟩
  · intro x hx
    obtain ⟨⟨i, u⟩, hy, rfl⟩ := List.mem_map.1 hx
    obtain ⟨x, g1, g2⟩ := hz.2 hy
    obtain ⟨g3, g4, g5⟩ := h2 i (List.of_mem_zip hy).1
    exact .inr ⟨i, rfl, g3, g4, mine_some.1 g5, g2 i g3 g4 g1⟩
  · intro i g1 g2 g3
    rw [e1]
    exact .inl (List.mem_map.2 ⟨i, h4 i g1 g2 (mine_some.2 g3), rfl⟩)
  · rw [List.map_map]
    exact List.map_snd_zip (Nat.le_of_eq hz.1.symm)

theorem placed_read {o : Operation} (hab : o.start ≤ o.finish) (h : (H.slice o.start o.finish).filterMap (mine o.who) = []) {u : Use} {m : Nat} (h1 : o.start ≤ m)
    (h2 : m ≤ o.finish) (h3 : u.Step (data (H.st m)) (H.st o.start).clock (data (H.st m)) (H.st o.finish).clock) : ∃ l, Placed H o l ∧ l.map (·.2) = [u] := by
  refine ⟨[(2 * m, u)], ⟨by simp, ?_, ?_⟩, rfl⟩
  · intro x hx
    cases List.mem_singleton.1 hx
    exact .inl ⟨m, rfl, h1, h2, h3⟩
  · intro i g1 g2 g3
    rw [List.filterMap_eq_nil_iff] at h
    have := h (H.ev i) (List.mem_map.2 ⟨i, List.mem_range'_1.2 ⟨g1, by omega⟩, rfl⟩)
    rw [← mine_some, this] at g3
    cases g3

theorem placed_reads {o : Operation} (h : (H.slice o.start o.finish).filterMap (mine o.who) = []) {us : List Use}
    (hu : ∀ u ∈ us, ∃ m, o.start ≤ m ∧ m ≤ o.finish ∧ u.Step (data (H.st m)) (H.st o.start).clock (data (H.st m)) (H.st o.finish).clock) :
    ∃ l, Placed H o l ∧ (l.map (·.2)).Perm us := by
  obtain ⟨l, h1, h2⟩ : ∃ l : List (Nat × Use), l.map (·.2) = us ∧ ∀ x ∈ l, ∃ m, x.1 = 2 * m ∧ o.start ≤ m ∧ m ≤ o.finish ∧
      x.2.Step (data (H.st m)) (H.st o.start).clock (data (H.st m)) (H.st o.finish).clock := by
    clear h
    induction us with
    | nil => exact ⟨[], rfl, by simp⟩
    | cons u us ih =>
      obtain ⟨l, e, hl⟩ := ih fun v hv => hu v (List.mem_cons_of_mem _ hv)
      obtain ⟨m, hm⟩ := hu u (by simp)
      refine ⟨(2 * m, u) :: l, by rw [List.map_cons, e], fun x hx => ?_⟩
      rcases List.mem_cons.1 hx with rfl | hx
      · exact ⟨m, rfl, hm⟩
      · exact hl x hx
  have hp : (l.mergeSort fun x y => decide (x.1 ≤ y.1)).Perm l := List.mergeSort_perm ..
  have hs : (l.mergeSort fun x y => decide (x.1 ≤ y.1)).Pairwise fun x y => decide (x.1 ≤ y.1) = true := by
    refine List.pairwise_mergeSort (fun x y z h1 h2 => ?_) (fun x y => ?_) _
    · rw [decide_eq_true_eq] at *; omega
    · rw [Bool.or_eq_true, decide_eq_true_eq, decide_eq_true_eq]; omega
  generalize (l.mergeSort fun x y => decide (x.1 ≤ y.1)) = l' at *
  refine ⟨l', ⟨?_, ?_, ?_⟩, by rw [← h1]; exact hp.map _⟩
  · rw [List.pairwise_map]
    refine List.pairwise_iff_forall_sublist.2 fun {x y} hxy => ?_
    obtain ⟨m, e, _⟩ := h2 x (hp.mem_iff.1 (hxy.subset (by simp)))
    have := List.pairwise_iff_forall_sublist.1 hs hxy
    rw [decide_eq_true_eq] at this
    exact ⟨this, fun _ => by omega⟩
  · intro x hx
    exact .inl (h2 x (hp.mem_iff.1 hx))
  · intro i g1 g2 g3
    rw [List.filterMap_eq_nil_iff] at h
    have := h (H.ev i) (List.mem_map.2 ⟨i, List.mem_range'_1.2 ⟨g1, by omega⟩, rfl⟩)
    rw [← mine_some, this] at g3
    cases g3

/-! ### Requests -/

theorem connAct_changes {a : Act} (h : ConnAct a) (hc : changes a = true) : a.effect ≠ none := by
  rcases h with h | ⟨_, _, _, _, rfl⟩
  · have := noEffect_effect h
    rcases h with h | ⟨_, _, _, rfl⟩
    · cases a <;> first | (cases hc; done) | (cases h; done)
    · cases hc
  · nofun

theorem exchange_connAct {k : Nat} {req : Request} {c : I32} {t1 tr : List SEv} {s1 s2 : Sys} (h : Exchange sv clock k req c t1 s1 tr s2) :
    ∀ e ∈ actsOf k tr, ConnAct e.act := by
  obtain ⟨ctx, es, g1, g2, _⟩ := h.run
  obtain ⟨_, _, _, _, g3⟩ := g1.run
  rw [← g2]
  exact (g3.own.only (dispatcher_connAct sv _ _)).2

theorem effectsBy_changes {l : List REv} : effectsBy l = effectsBy (l.filter fun e => changes e.act) := by
  induction l with
  | nil => rfl
  | cons e l ih =>
    unfold effectsBy at *
    rw [List.filterMap_cons, List.filter_cons]
    cases h : changes e.act with
    | false =>
      rw [changes_effect h]
      exact ih
    | true =>
      rw [if_pos rfl, List.filterMap_cons, ih]

theorem filter_effects {l : List REv} (h : ∀ e ∈ l, ConnAct e.act) : (effectsBy l).length = (l.filter fun e => changes e.act).length := by
  rw [effectsBy_changes]
  have : ∀ e ∈ l.filter fun e => changes e.act, e.act.effect ≠ none := by
    intro e he
    obtain ⟨h1, h2⟩ := List.mem_filter.1 he
    exact connAct_changes (h e h1) h2
  generalize (l.filter fun e => changes e.act) = l' at *
  induction l' with
  | nil => rfl
  | cons e l' ih =>
    unfold effectsBy at *
    rw [List.filterMap_cons]
    cases h : e.act.effect with
    | none => exact absurd h (this e (by simp))
    | some x => rw [List.length_cons, List.length_cons, ih fun e he => this e (List.mem_cons_of_mem _ he)]

theorem exchange_reads {k : Nat} {req : Request} {c : I32} {t1 tr : List SEv} {s1 s2 : Sys} (h : Exchange sv clock k req c t1 s1 tr s2) (hq : ∀ q, req ≠ .offsetCommit q) :
    tr.filterMap (mine (.conn k)) = [] := by
  rw [mine_conn]
  refine List.eq_nil_of_length_eq_zero ?_
  rw [← filter_effects (exchange_connAct h)]
  obtain ⟨ctx, es, g1, g2, _⟩ := h.run
  rw [← g2]
  obtain ⟨client, n, k1, k2, k3⟩ := g1.run
  rcases request_run g1.wellFormed k1 k2 g1.body k3 g1.sentAll g1.over with ⟨h1, _⟩ | ⟨ta, tb, w1, rfl, hs, ⟨_, h1, _⟩ | ⟨payload, h1, _, h3, h4⟩⟩
  · cases h1
  · cases h1
  · rw [own_append, effectsBy_append, h4, effectsBy_own (answer_noEffect sv req hq) (fun _ => noEffect_effect) h1]; rfl

theorem placed_request_read {a b k : Nat} {req : Request} {c : I32} {t1 : List SEv} (hab : a < b) (hb : b ≤ H.length) (h : Exchange sv clock k req c t1 (H.st a) (H.slice a b) (H.st b))
    (hq : ∀ q, req ≠ .offsetCommit q)
    (hr : ∃ us, Pieces (H.st a) (H.st b) (.answered req c (sent (actsOf k (H.slice a b)))) us ∧ ∀ u ∈ us, ReadAt (H.st a) (H.slice a b) (H.st b) u) :
    ∃ l, Placed H ⟨a, b, .conn k, .answered req c (sent (actsOf k (H.slice a b)))⟩ l ∧ Parts (H.st a) (H.st b) (.answered req c (sent (actsOf k (H.slice a b)))) (l.map (·.2)) := by
  obtain ⟨us, h1, h2⟩ := hr
  obtain ⟨l, h3, h4⟩ := placed_reads H (o := ⟨a, b, .conn k, .answered req c (sent (actsOf k (H.slice a b)))⟩) (exchange_reads h hq) (us := us) fun u hu => by
    obtain ⟨m, sm, m1, m2, m3, m4⟩ := H.sometime (Nat.le_of_lt hab) hb (h2 u hu)
    rw [← m3] at m4
    exact ⟨m, m1, m2, m4⟩
  exact ⟨l, h3, .request h1 h4⟩

theorem effects_forall₂ {l : List REv} (h : ∀ e ∈ l, e.act.effect ≠ none) : List.Forall₂ (fun (e : REv) x => e.act.effect = some x) l (effectsBy l) := by
  induction l with
  | nil => exact .nil
  | cons e l ih =>
    unfold effectsBy at *
    rw [List.filterMap_cons]
    cases he : e.act.effect with
    | none => exact absurd he (h e (by simp))
    | some x => exact .cons he (ih fun e he => h e (List.mem_cons_of_mem _ he))

theorem commit_effect {e : REv} {t g : Bytes} {p : I32} {o : I64} (h : e.act.effect = some (.commit t p g o.toInt)) : e = ⟨.commit t p g o, ()⟩ := by
  obtain ⟨act, r⟩ := e
  dsimp only at h
  cases act <;> simp only [Act.effect, reduceCtorEq] at h
  · cases h
  · simp only [Option.some.injEq, Effect.commit.injEq] at h
    obtain ⟨rfl, rfl, rfl, h5⟩ := h
    rw [BitVec.eq_of_toInt_eq h5]
  · cases h

/-- The commit of one partition, and what the client is told about it. -/
def commitPiece (q : CommitRequest) (z : (CommitTopic × CommitRespTopic) × CommitPartition × CommitRespPartition) : Use :=
  .commit { q with topics := [{ name := z.1.1.name, partitions := [z.2.1] }] } { topics := [{ name := z.1.2.name, partitions := [z.2.2] }] }

def commitPairs (q : CommitRequest) (x : CommitResponse) : List ((CommitTopic × CommitRespTopic) × CommitPartition × CommitRespPartition) :=
  (q.topics.zip x.topics).flatMap fun z => (z.1.partitions.zip z.2.partitions).map fun y => (z, y)

theorem placed_commit {a b k : Nat} {q : CommitRequest} {c : I32} {t1 : List SEv} (hab : a < b) (hb : b ≤ H.length)
    (h : Exchange sv clock k (.offsetCommit q) c t1 (H.st a) (H.slice a b) (H.st b)) :
    ∃ l, Placed H ⟨a, b, .conn k, .answered (.offsetCommit q) c (sent (actsOf k (H.slice a b)))⟩ l ∧
      Parts (H.st a) (H.st b) (.answered (.offsetCommit q) c (sent (actsOf k (H.slice a b)))) (l.map (·.2)) := by
  obtain ⟨x, h1, h2, h3⟩ := C73_commit_partial h
  have hpairs : ∀ z ∈ commitPairs q x, z.1.2.name = z.1.1.name ∧ z.2.2.partitionIndex = z.2.1.partitionIndex ∧
      (z.2.2.errorCode = 3 ∧ ¬ ((H.st a).view 0).hasPartition z.1.1.name z.2.1.partitionIndex ∨ z.2.2.errorCode = 0) := by
    intro z hz
    obtain ⟨y, hy, hz⟩ := List.mem_flatMap.1 hz
    obtain ⟨w, hw, rfl⟩ := List.mem_map.1 hz
    obtain ⟨e1, e2⟩ := (List.forall₂_iff_zip.1 h3).2 hy
    obtain ⟨e3, e4⟩ := (List.forall₂_iff_zip.1 e2).2 hw
    refine ⟨e1, e3, ?_⟩
    rcases e4 with ⟨e4, ta, tb, sm, e5, e6, e7, e8⟩ | ⟨e4, _⟩
    · exact .inl ⟨e4, fun h => e8 ((C46_kept e6).2.2.2 _ _ h)⟩
    · exact .inr e4
  have hpieces : ((q.topics.zip x.topics).flatMap fun z => (z.1.partitions.zip z.2.partitions).map fun y =>
      Use.commit { q with topics := [{ name := z.1.name, partitions := [y.1] }] } { topics := [{ name := z.2.name, partitions := [y.2] }] }) = (commitPairs q x).map (commitPiece q) := by
    unfold commitPairs
    rw [List.map_flatMap]
    refine congrArg (fun f => List.flatMap f _) (funext fun z => ?_)
    rw [List.map_map]
    rfl
  have hacc : accepted q x = ((commitPairs q x).filter fun z => z.2.2.errorCode = 0).map fun z => .commit z.1.1.name z.2.1.partitionIndex q.groupId z.2.1.committedOffset.toInt := by
    unfold accepted commitPairs
    generalize q.topics.zip x.topics = l
    induction l with
    | nil => rfl
    | cons z l ih =>
      rw [List.flatMap_cons, List.flatMap_cons, List.filter_append, List.map_append, ← ih]
      congr 1
      obtain ⟨qt, rt⟩ := z
      dsimp only
      generalize qt.partitions.zip rt.partitions = m
      induction m with
      | nil => rfl
      | cons y m ih' =>
        rw [List.flatMap_cons, List.map_cons, List.filter_cons, ih']
        by_cases e : y.2.errorCode = 0
        · rw [if_pos e, if_pos (by simpa using e)]; rfl
        · rw [if_neg e, if_neg (by simpa using e)]; rfl
  -- the accepted commits are the changes that this connection makes
  have hne : ∀ e ∈ (H.slice a b).filterMap (mine (.conn k)), e.act.effect ≠ none := by
    rw [mine_conn]
    intro e he
    obtain ⟨h4, h5⟩ := List.mem_filter.1 he
    exact connAct_changes (exchange_connAct h e h4) h5
  have hev := effects_forall₂ hne
  rw [mine_conn, ← effectsBy_changes, h2, ← mine_conn, hacc, List.forall₂_map_right_iff] at hev
  obtain ⟨l, g1, g2⟩ := placed_writes H (o := ⟨a, b, .conn k, .answered (.offsetCommit q) c (sent (actsOf k (H.slice a b)))⟩)
    (us := ((commitPairs q x).filter fun z => z.2.2.errorCode = 0).map (commitPiece q)) (Nat.le_of_lt hab) (by
      dsimp only
      rw [List.forall₂_map_right_iff]
      have hmem : ∀ z ∈ (commitPairs q x).filter fun z => z.2.2.errorCode = 0, z ∈ commitPairs q x ∧ z.2.2.errorCode = 0 := fun z hz => by
        simpa using List.mem_filter.1 hz
      generalize ((commitPairs q x).filter fun z => z.2.2.errorCode = 0) = m at hev hmem
      generalize (H.slice a b).filterMap (mine (.conn k)) = evs at hev
      clear hne
      induction hev with
      | nil => exact .nil
      | @cons e z evs m he _ ih =>
        refine .cons ?_ (ih fun z hz => hmem z (List.mem_cons_of_mem _ hz))
        obtain ⟨z1, z2⟩ := hmem z (by simp)
        obtain ⟨p1, p2, _⟩ := hpairs z z1
        intro i i1 i2 i3
        rw [commit_effect he] at i3
        have hstep := H.step i (by omega)
        rw [mine_conn_inv i3] at hstep
        obtain ⟨d1, d2⟩ := commit_data (q := { q with topics := [{ name := z.1.1.name, partitions := [z.2.1] }] }) rfl hstep
        refine ⟨?_, d1⟩
        obtain ⟨⟨qt, ⟨name, rps⟩⟩, qp, ⟨pi, code⟩⟩ := z
        dsimp only at *
        subst p1 p2 z2
        simp [commitReply, data_some d2])
  refine ⟨(((commitPairs q x).filter fun z => ¬ z.2.2.errorCode = 0).map fun z => (2 * a, commitPiece q z)) ++ l, ⟨?_, ?_, ?_⟩, ?_⟩
  · rw [List.map_append, List.map_map, List.pairwise_append]
    refine ⟨?_, g1.sorted, ?_⟩
    · rw [List.pairwise_map]
      exact List.pairwise_of_forall fun _ _ => ⟨Nat.le_refl _, fun _ => by dsimp only [Function.comp]; omega⟩
    · intro x hx y hy
      obtain ⟨_, _, rfl⟩ := List.mem_map.1 hx
      obtain ⟨w, hw, rfl⟩ := List.mem_map.1 hy
      rcases g1.ok w hw with ⟨m, e, g3, _⟩ | ⟨m, e, g3, _⟩ <;> dsimp only [Function.comp] at * <;> exact ⟨by omega, by omega⟩
  · intro y hy
    rcases List.mem_append.1 hy with hy | hy
    · obtain ⟨z, hz, rfl⟩ := List.mem_map.1 hy
      obtain ⟨z1, z2⟩ := List.mem_filter.1 hz
      obtain ⟨p1, p2, p3⟩ := hpairs z z1
      simp only [decide_not, Bool.not_eq_true', decide_eq_false_iff_not] at z2
      obtain ⟨p3, hn⟩ := p3.resolve_right z2
      obtain ⟨⟨qt, ⟨name, rps⟩⟩, qp, ⟨pi, code⟩⟩ := z
      dsimp only at *
      subst p1 p2 p3
      refine .inl ⟨a, rfl, Nat.le_refl _, Nat.le_of_lt hab, ?_⟩
      have hrep : (⟨[⟨qt.name, [⟨qp.partitionIndex, 3⟩]⟩]⟩ : CommitResponse) = commitReply (data (H.st a)) { q with topics := [{ name := qt.name, partitions := [qp] }] } := by
        simp [commitReply, data_none hn]
      refine ⟨hrep, ?_⟩
      generalize hq' : ({ q with topics := [{ name := qt.name, partitions := [qp] }] } : CommitRequest) = q' at *
      have hacc : accepted q' ⟨[⟨qt.name, [⟨qp.partitionIndex, 3⟩]⟩]⟩ = [] := by rw [← hq']; simp [accepted]
      have key : (data (H.st a)).offset = ((data (H.st a)).commit q').offset := by
        funext t' p' g'
        show _ = BitVec.ofInt 64 (commitNext (data (H.st a)) q' t' p' g')
        rw [← accepted_next, ← hrep, hacc]
        exact (BitVec.ofInt_toInt).symm
      have key2 : (data (H.st a)).log = ((data (H.st a)).commit q').log := rfl
      generalize (data (H.st a)).commit q' = d at key key2
      generalize data (H.st a) = d' at key key2
      cases d; cases d'; cases key; cases key2; rfl
    · exact g1.ok y hy
  · intro i i1 i2 i3
    rw [List.map_append]
    exact (g1.all i i1 i2 i3).imp_left (List.mem_append_right _)
  · refine .request (.commit h1 (h3.imp fun _ _ h => h.2.length_eq)) ?_
    rw [hpieces, List.map_append, g2, List.map_map]
    show ((List.filter (fun z => decide (¬ z.2.2.errorCode = 0)) (commitPairs q x)).map (commitPiece q) ++ _).Perm _
    rw [← List.map_append]
    refine List.Perm.map _ (List.perm_append_comm.trans ?_)
    have := List.filter_append_perm (fun z => decide (z.2.2.errorCode = 0)) (commitPairs q x)
    simpa using this

/-! ### Calls -/

theorem slice_call {a b i : Nat} {c : Call} (hab : a < b) (he : H.ev a = .life (.api i c)) (x : Who) :
    (H.slice a b).filterMap (mine x) = (H.slice (a + 1) b).filterMap (mine x) := by
  rw [H.slice_succ hab, List.filterMap_cons, he]; rfl

theorem post_own {call : PostCall} {l : List REv} (h : Own call.prog l (.ret ())) :
    ∃ r, (l.filter fun e => changes e.act) = [⟨.createPartition call.topic (BitVec.ofInt 32 call.partition), ()⟩, ⟨.post call.topic (BitVec.ofInt 32 call.partition) r, ()⟩] ∧
      postsIn l = [(call.topic, BitVec.ofInt 32 call.partition, r)] := by
  unfold PostCall.prog at h
  split at h
  · unfold simplePost at h
    cases h with
    | act _ _ _ h =>
    cases h with
    | act _ _ _ h =>
    cases h with
    | act _ _ _ h =>
    cases h with
    | act _ _ _ h =>
    cases h
    exact ⟨_, rfl, rfl⟩
  · unfold extendedPost at h
    cases h with
    | act _ _ _ h =>
    cases h with
    | act _ _ _ h =>
    cases h with
    | act _ _ _ h =>
    cases h with
    | act _ _ _ h =>
    cases h
    exact ⟨_, rfl, rfl⟩

/-- Creating a partition that exists changes nothing. -/
theorem create_existing {d : Data} {t : Bytes} {p : I32} (h : (d.log t p).isSome = true) : d.create p [t] = d := by
  unfold Data.create
  cases d with
  | mk log offset =>
    congr 1
    funext t' p'
    by_cases e : t' = t ∧ p' = p
    · rw [if_pos (by simpa using e)]
      obtain ⟨rfl, rfl⟩ := e
      dsimp only at *
      cases h' : log t' p' with
      | none => rw [h'] at h; cases h
      | some l => rfl
    · rw [if_neg (by simpa using e)]

theorem placed_post {a b i : Nat} {call : PostCall} (hab : a < b) (hb : b ≤ H.length) (he : H.ev a = .life (.api i call.call))
    (h : CallRun (H.st a) i call.call (H.slice (a + 1) b) (H.st b)) : ∃ l, Placed H ⟨a, b, .caller i, .posted call⟩ l ∧ Parts (H.st a) (H.st b) (.posted call) (l.map (·.2)) := by
  obtain ⟨sx, hs, hr⟩ := h.run
  obtain ⟨ta, tb, r, etr, n1, n2, hm, _⟩ := C57_post_takes_effect hs h.idle hr h.inside h.returns
  have hposts : callPosts i (H.slice (a + 1) b) = [(call.topic, BitVec.ofInt 32 call.partition, r)] := by
    unfold callPosts at *
    rw [etr, List.filterMap_append, n1, List.filterMap_cons, n2]
    simp
  obtain ⟨s0, es, e1, e2, e3, e4, e5⟩ := h.exec call.entry
  obtain ⟨r', g1, g2⟩ := post_own e3.own
  rw [e4] at g1 g2
  rw [callPosts_eq] at hposts
  have g2 : postsIn (KM.callsOf i (H.slice (a + 1) b)) = _ := g2
  rw [g2] at hposts
  cases hposts
  have hcreate : ∀ j, a ≤ j → j < b → mine (.caller i) (H.ev j) = some ⟨.createPartition call.topic (BitVec.ofInt 32 call.partition), ()⟩ →
      data (H.st (j + 1)) = (data (H.st j)).create (BitVec.ofInt 32 call.partition) [call.topic] := by
    intro j i1 i2 i3
    have hstep := H.step j (by omega)
    rw [mine_caller_inv i3] at hstep
    exact create_data hstep
  obtain ⟨l, k1, k2⟩ := placed_writes H (o := ⟨a, b, .caller i, .posted call⟩)
    (us := [.create call.partition [call.topic], .post call.topic call.partition call.key call.value call.extended]) (Nat.le_of_lt hab) (by
      dsimp only
      rw [slice_call H hab he, mine_caller, g1]
      refine .cons ?_ (.cons ?_ .nil)
      · exact hcreate
      · intro j i1 i2 i3
        have hstep := H.step j (by omega)
        rw [mine_caller_inv i3] at hstep
        obtain ⟨m1, m2, m3, m4⟩ := hm
        exact ⟨r, m1, m2, m3, post_data hstep, m4⟩)
  by_cases hx : ((H.st a).view 0).hasPartition call.topic (BitVec.ofInt 32 call.partition)
  · -- creating the partition changes nothing, and is left out
    obtain ⟨n, u, y, rfl⟩ : ∃ n u y, l = [(n, u), y] := by
      have := congrArg List.length k2
      rw [List.length_map] at this
      rcases l with _ | ⟨⟨n, u⟩, _ | ⟨y, _ | ⟨z, l⟩⟩⟩
      · cases this
      · cases this
      · exact ⟨n, u, y, rfl⟩
      · simp at this
    · simp only [List.map_cons, List.map_nil, List.cons.injEq, and_true] at k2
      obtain ⟨rfl, k2⟩ := k2
      refine ⟨[y], ⟨by simp, fun x hx => k1.ok x (by simp_all), fun j i1 i2 i3 => ?_⟩, by rw [List.map_cons, List.map_nil, k2]; exact .add hx⟩
      rcases k1.all j i1 i2 i3 with g | g
      · simp only [List.map_cons, List.map_nil, List.mem_cons, List.not_mem_nil, or_false] at g
        rcases g with g | g
        · right
          rcases k1.ok (n, .create call.partition [call.topic]) (by simp) with ⟨m, e, _⟩ | ⟨m, e, _, _, _, g1⟩
          · dsimp only at e; omega
          · dsimp only at e
            obtain rfl : m = j := by omega
            have g1 : data (H.st (m + 1)) = _ := g1
            rw [g1]
            refine create_existing ?_
            rw [Option.isSome_iff_ne_none, data_ne]
            exact (C46_kept (H.run (show a ≤ m from i1) (Nat.le_trans (Nat.le_of_lt (show m < b from i2)) hb))).2.2.2 _ _ hx
        · exact .inl (by simp [g])
      · exact .inr g
  · exact ⟨l, k1, by rw [k2]; exact .post hx⟩

theorem create_own {n : Int} {topics : List Bytes} {l : List REv} (h : Own (createPartitionTopics n topics) l (.ret ())) :
    (l.filter fun e => changes e.act) = topics.map fun t => ⟨.createPartition t (BitVec.ofInt 32 n), ()⟩ := by
  induction topics generalizing l with
  | nil => cases h; rfl
  | cons t ts ih =>
    unfold createPartitionTopics at h
    cases h with
    | act _ _ _ h =>
    cases h with
    | act _ _ _ h =>
    rw [List.map_cons, ← ih h]
    rfl

theorem placed_create {a b i : Nat} {n : Int} {topics : List Bytes} (hab : a < b) (hb : b ≤ H.length) (he : H.ev a = .life (.api i (.createPartitionTopics n topics)))
    (h : CallRun (H.st a) i (.createPartitionTopics n topics) (H.slice (a + 1) b) (H.st b)) :
    ∃ l, Placed H ⟨a, b, .caller i, .created n topics⟩ l ∧ Parts (H.st a) (H.st b) (.created n topics) (l.map (·.2)) := by
  obtain ⟨s0, es, e1, e2, e3, e4, e5⟩ := h.exec rfl
  have g1 := create_own e3.own
  rw [e4] at g1
  obtain ⟨l, k1, k2⟩ := placed_writes H (o := ⟨a, b, .caller i, .created n topics⟩) (us := topics.map fun t => .create n [t]) (Nat.le_of_lt hab) (by
      dsimp only
      rw [slice_call H hab he, mine_caller]
      have g1 : (KM.callsOf i (H.slice (a + 1) b)).filter (fun e => changes e.act) = _ := g1
      rw [g1, List.forall₂_map_left_iff, List.forall₂_map_right_iff, List.forall₂_same]
      intro t _ j i1 i2 i3
      have hstep := H.step j (by omega)
      rw [mine_caller_inv i3] at hstep
      exact create_data hstep)
  exact ⟨l, k1, by rw [k2]; exact .create n topics⟩

theorem placed_reset {a b i : Nat} {topic group : Bytes} {n : Int} {o : I64} (hab : a < b) (hb : b ≤ H.length)
    (he : H.ev a = .life (.api i (.setConsumerGroupOffset topic n group o)))
    (h : CallRun (H.st a) i (.setConsumerGroupOffset topic n group o) (H.slice (a + 1) b) (H.st b)) :
    ∃ l, Placed H ⟨a, b, .caller i, .reset topic n group o⟩ l ∧ Parts (H.st a) (H.st b) (.reset topic n group o) (l.map (·.2)) := by
  obtain ⟨s0, es, e1, e2, e3, e4, e5⟩ := h.exec rfl
  have key : (own es).filter (fun e => changes e.act) = [⟨.setOffset topic (BitVec.ofInt 32 n) group o, ()⟩] ∨
      ((own es).filter (fun e => changes e.act) = [] ∧ ¬ (s0.view 0).hasPartition topic (BitVec.ofInt 32 n)) := by
    unfold setConsumerGroupOffset at e3
    obtain ⟨u1, w1, r1, w2, u2, h1, s1, h2, rfl⟩ := exec_act_ret e3
    obtain ⟨rfl, rfl⟩ := s1
    have o1 : ∀ {t : List Ev}, (own (u1 ++ ⟨true, .getTopic topic, w2.ds.getTopic topic⟩ :: t)).filter (fun e => changes e.act) = (own t).filter fun e => changes e.act := by
      intro t; rw [own_append, own_envSteps h1, own_mine]; rfl
    rw [o1]
    by_cases ht : w2.ds.getTopic topic = true
    · rw [if_pos ht] at h2
      obtain ⟨u3, w3, r3, w4, u4, h3, s3, h4, rfl⟩ := exec_act_ret h2
      obtain ⟨_, rfl, rfl⟩ := s3
      have o2 : ∀ {t : List Ev}, (own (u3 ++ ⟨true, .getPartition topic (int32 n), w4.ds.getPartition topic (int32 n)⟩ :: t)).filter (fun e => changes e.act) =
          (own t).filter fun e => changes e.act := by
        intro t; rw [own_append, own_envSteps h3, own_mine]; rfl
      rw [o2]
      by_cases hp : w4.ds.getPartition topic (int32 n) = true
      · rw [if_pos hp] at h4
        obtain ⟨u5, w5, r5, w6, u6, h5, s5, h6, rfl⟩ := exec_act_ret h4
        obtain ⟨_, h7⟩ := exec_ret_inv h6
        left
        rw [own_append, own_envSteps h5, own_mine, own_envSteps h7]; rfl
      · rw [if_neg hp] at h4
        obtain ⟨_, h5⟩ := exec_ret_inv h4
        rw [own_envSteps h5]
        exact .inr ⟨rfl, fun hx => hp (h3.1.hasPartition (h1.1.hasPartition hx))⟩
    · rw [if_neg ht] at h2
      obtain ⟨_, h3⟩ := exec_ret_inv h2
      rw [own_envSteps h3]
      exact .inr ⟨rfl, fun hx => ht (h1.1.hasPartition hx).hasTopic⟩
  rw [e4] at key
  have key : (KM.callsOf i (H.slice (a + 1) b)).filter (fun e => changes e.act) = _ ∨ (KM.callsOf i (H.slice (a + 1) b)).filter (fun e => changes e.act) = _ ∧ _ := key
  rcases key with g1 | ⟨g1, g2⟩
  · obtain ⟨l, k1, k2⟩ := placed_writes H (o := ⟨a, b, .caller i, .reset topic n group o⟩) (us := [.reset topic n group o]) (Nat.le_of_lt hab) (by
      dsimp only
      rw [slice_call H hab he, mine_caller, g1]
      refine .cons ?_ .nil
      intro j i1 i2 i3
      have hstep := H.step j (by omega)
      rw [mine_caller_inv i3] at hstep
      exact reset_data hstep)
    exact ⟨l, k1, by rw [k2]; exact .reset ..⟩
  · obtain ⟨l, k1, k2⟩ := placed_read H (o := ⟨a, b, .caller i, .reset topic n group o⟩) (u := .reset topic n group o) (Nat.le_of_lt hab)
      (by dsimp only; rw [slice_call H hab he, mine_caller, g1]) (m := a) (Nat.le_refl _) (Nat.le_of_lt hab) (by
        show data (H.st a) = (data (H.st a)).reset _ _ _ _
        have hst := sameStore e1
        unfold Data.reset
        rw [data_none (fun hx => g2 ((hst.exist _ _).2 hx))]
        simp)
    exact ⟨l, k1, by rw [k2]; exact .reset ..⟩

theorem operation_placed {o : Operation} (h : o.In H) : ∃ l, Placed H o l ∧ Parts (H.st o.start) (H.st o.finish) o.what (l.map (·.2)) := by
  cases h with
  | request hab hb h single hs =>
    cases single with
    | fetch _ hf => exact placed_request_read H hab hb h nofun (fetch_moment h hf hs)
    | listOffsets => exact placed_request_read H hab hb h nofun (listOffsets_moment h)
    | commit => exact placed_commit H hab hb h
    | offsetFetch => exact placed_request_read H hab hb h nofun (offsetFetch_moment h)
    | aside ha =>
      refine placed_request_read H hab hb h (fun q e => by rw [e] at ha; cases ha) ⟨_, .other ha, fun u hu => ?_⟩
      cases List.mem_singleton.1 hu
      exact ⟨[], _, _, rfl, .nil _, H.run (Nat.le_of_lt hab) hb, rfl⟩
  | post hab hb he h => exact placed_post H hab hb he h
  | create hab hb he h => exact placed_create H hab hb he h
  | reset hab hb he h => exact placed_reset H hab hb he h

/-! ### The order -/

/-- A part of an operation with its place: `index` is the number of the operation in the list of operations. -/
structure Item where
  index : Nat
  op : Operation
  key : Nat
  use : Use

/-- All parts of the operations. -/
def gather : Nat → List (Operation × List (Nat × Use)) → List Item
  | _, [] => []
  | j, (o, l) :: r => (l.map fun x => ⟨j, o, x.1, x.2⟩) ++ gather (j + 1) r

theorem gather_mem {j : Nat} {r : List (Operation × List (Nat × Use))} {x : Item} (h : x ∈ gather j r) :
    ∃ i l, x.index = j + i ∧ r[i]? = some (x.op, l) ∧ (x.key, x.use) ∈ l := by
  induction r generalizing j with
  | nil => cases h
  | cons ol r ih =>
    obtain ⟨o, l⟩ := ol
    rw [gather] at h
    rcases List.mem_append.1 h with h | h
    · obtain ⟨y, hy, rfl⟩ := List.mem_map.1 h
      exact ⟨0, l, rfl, rfl, hy⟩
    · obtain ⟨i, l', h1, h2, h3⟩ := ih h
      exact ⟨i + 1, l', by omega, by simpa using h2, h3⟩

theorem mem_gather {j i : Nat} {r : List (Operation × List (Nat × Use))} {o : Operation} {l : List (Nat × Use)} (h : r[i]? = some (o, l)) {x : Nat × Use} (hx : x ∈ l) :
    (⟨j + i, o, x.1, x.2⟩ : Item) ∈ gather j r := by
  induction r generalizing j i with
  | nil => cases h
  | cons ol r ih =>
    rw [gather]
    cases i with
    | zero =>
      cases h
      exact List.mem_append_left _ (List.mem_map.2 ⟨x, hx, rfl⟩)
    | succ i =>
      have := ih (j := j + 1) (i := i) (by simpa using h)
      rw [show j + 1 + i = j + (i + 1) by omega] at this
      exact List.mem_append_right _ this

theorem gather_filter {j i : Nat} {r : List (Operation × List (Nat × Use))} {o : Operation} {l : List (Nat × Use)} (h : r[i]? = some (o, l)) :
    (gather j r).filter (fun x => x.index = j + i) = l.map fun x => ⟨j + i, o, x.1, x.2⟩ := by
  induction r generalizing j i with
  | nil => cases h
  | cons ol r ih =>
    obtain ⟨o', l'⟩ := ol
    rw [gather, List.filter_append]
    cases i with
    | zero =>
      cases h
      have h1 : (gather (j + 1) r).filter (fun x => x.index = j + 0) = [] := by
        rw [List.filter_eq_nil_iff]
        intro x hx
        obtain ⟨i, _, e, _⟩ := gather_mem hx
        simp only [decide_eq_true_eq]; omega
      rw [h1, List.append_nil, List.filter_eq_self.2]
      · rfl
      · intro x hx
        obtain ⟨y, _, rfl⟩ := List.mem_map.1 hx
        simp
    | succ i =>
      have := ih (j := j + 1) (i := i) (by simpa using h)
      rw [show j + 1 + i = j + (i + 1) by omega] at this
      rw [this, List.filter_eq_nil_iff.2, List.nil_append]
      intro x hx
      obtain ⟨y, _, rfl⟩ := List.mem_map.1 hx
      simp

/-- No two parts are at the same event. -/
def Differ (x y : Item) : Prop := x.key = y.key → x.key % 2 = 0

theorem gather_differ {r : List (Operation × List (Nat × Use))} (hp : ∀ x ∈ r, Placed H x.1 x.2)
    (ha : (r.map (·.1)).Pairwise fun o o' => o.who = o'.who → o.finish ≤ o'.start ∨ o'.finish ≤ o.start) (j : Nat) : (gather j r).Pairwise Differ := by
  induction r generalizing j with
  | nil => exact .nil
  | cons ol r ih =>
    obtain ⟨o, l⟩ := ol
    rw [List.map_cons, List.pairwise_cons] at ha
    rw [gather, List.pairwise_append]
    refine ⟨?_, ih (fun x hx => hp x (List.mem_cons_of_mem _ hx)) ha.2 _, ?_⟩
    · rw [List.pairwise_map]
      have := (hp (o, l) (by simp)).sorted
      rw [List.pairwise_map] at this
      exact this.imp fun h => h.2
    · intro x hx y hy e
      obtain ⟨x', hx', rfl⟩ := List.mem_map.1 hx
      obtain ⟨i, l', _, h2, h3⟩ := gather_mem hy
      have hy' := List.mem_of_getElem? h2
      have hd := ha.1 y.op (List.mem_map.2 ⟨_, hy', rfl⟩)
      rcases (hp (o, l) (by simp)).ok x' hx' with ⟨m, e1, _⟩ | ⟨m, e1, g1, g2, g3, _⟩
      · simp only; omega
      · rcases (hp _ (List.mem_cons_of_mem _ hy')).ok _ h3 with ⟨m', e2, _⟩ | ⟨m', e2, k1, k2, k3, _⟩
        · dsimp only at *; omega
        · exfalso
          dsimp only at *
          obtain rfl : m = m' := by omega
          rw [g3] at k3
          cases hd (by simpa using k3) <;> omega

theorem unchanged_data {a b : Nat} (hab : a ≤ b) (hb : b ≤ H.length) (h : ∀ i, a ≤ i → i < b → data (H.st (i + 1)) = data (H.st i)) : data (H.st b) = data (H.st a) := by
  obtain ⟨d, rfl⟩ : ∃ d, b = a + d := ⟨b - a, by omega⟩
  induction d with
  | zero => rfl
  | succ d ih => rw [← ih (by omega) (by omega) fun i h1 h2 => h i h1 (by omega)]; exact h (a + d) (by omega) (by omega)

/-- Parts in the order of their places are a behaviour of the machine. -/
theorem legal_of_sorted {l : List Item} {j : Nat} (hj : j ≤ H.length) (hs : l.Pairwise fun x y => x.key ≤ y.key) (hd : l.Pairwise Differ) (hok : ∀ x ∈ l, ItemOk H x.op (x.key, x.use))
    (hb : ∀ x ∈ l, x.op.finish ≤ H.length) (hk : ∀ x ∈ l, 2 * j ≤ x.key) (hc : ∀ i, j ≤ i → i < H.length → data (H.st (i + 1)) ≠ data (H.st i) → ∃ x ∈ l, x.key = 2 * i + 1) :
    Legal (data (H.st j)) (l.map fun x => (x.use, (H.st x.op.start).clock, (H.st x.op.finish).clock)) (data (H.st H.length)) := by
  induction l generalizing j with
  | nil =>
    rw [unchanged_data H hj (Nat.le_refl _) fun i h1 h2 => ?_]
    · exact .nil _
    · refine Classical.byContradiction fun h => ?_
      obtain ⟨x, hx, _⟩ := hc i h1 h2 h
      cases hx
  | cons x l ih =>
    rw [List.pairwise_cons] at hs hd
    have hxk := hk x (by simp)
    have quiet : ∀ m, j ≤ m → m ≤ H.length → 2 * m ≤ x.key → data (H.st m) = data (H.st j) := by
      intro m h1 h2 h3
      refine unchanged_data H h1 h2 fun i h4 h5 => Classical.byContradiction fun h => ?_
      obtain ⟨y, hy, e⟩ := hc i h4 (by omega) h
      rcases List.mem_cons.1 hy with rfl | hy
      · omega
      · have := hs.1 y hy; omega
    rw [List.map_cons]
    have hf := hb x (by simp)
    rcases hok x (by simp) with ⟨m, e, h1, h2, h3⟩ | ⟨m, e, h1, h2, _, h3⟩
    · dsimp only at *
      rw [← quiet m (by omega) (by omega) (by omega)]
      refine .cons h3 (ih (j := m) (by omega) hs.2 hd.2 (fun y hy => hok y (List.mem_cons_of_mem _ hy)) (fun y hy => hb y (List.mem_cons_of_mem _ hy))
        (fun y hy => by have := hs.1 y hy; omega) fun i h4 h5 h6 => ?_)
      obtain ⟨y, hy, e'⟩ := hc i (by omega) h5 h6
      rcases List.mem_cons.1 hy with rfl | hy
      · omega
      · exact ⟨y, hy, e'⟩
    · dsimp only at *
      rw [← quiet m (by omega) (by omega) (by omega)]
      refine .cons h3 (ih (j := m + 1) (by omega) hs.2 hd.2 (fun y hy => hok y (List.mem_cons_of_mem _ hy)) (fun y hy => hb y (List.mem_cons_of_mem _ hy))
        (fun y hy => ?_) fun i h4 h5 h6 => ?_)
      · have h4 := hs.1 y hy
        have h5 := hd.1 y hy
        by_cases h6 : x.key = y.key
        · have := h5 h6; omega
        · omega
      · obtain ⟨y, hy, e'⟩ := hc i (by omega) h5 h6
        rcases List.mem_cons.1 hy with rfl | hy
        · omega
        · exact ⟨y, hy, e'⟩

theorem in_bounds {o : Operation} (h : o.In H) : o.start < o.finish ∧ o.finish ≤ H.length := by
  cases h <;> exact ⟨by assumption, by assumption⟩

/-- In the order of the places, and of the beginnings of the operations. -/
def before (x y : Item) : Bool := decide (x.key < y.key ∨ (x.key = y.key ∧ x.op.start ≤ y.op.start))
end

/-- A part of an operation in an order of all of them. -/
structure Point where
  /-- the number of the operation -/
  index : Nat
  op : Operation
  use : Use

/-- **C94**: whatever is done with the mock at the same time, by clients and by tests, is linearizable partition by partition. There is an order of the parts of all operations
(`Parts`: a Fetch request and a post are one part, any other request has a part for each partition that it names) such that
- each operation has its parts, with the answer that was received;
- an operation that was over before another began comes before it, with all its parts;
- one after the other, in this order, the parts are uses of the machine of `Spec/Sequence.lean` that lead from nothing to the data of the mock, each between the times at which its
  operation began and ended.
Missing for the full statement: that a post is one part also if it creates the partition, which is false, `C94_false`; that requests other than Fetch are one part, which is false if
they name several partitions, `C94_several_false`; that a Fetch is one part also if a partition that it names is created and written to while it is served, which is false,
`C96_false`; SyncGroup, and such a Fetch with several partitions of one topic, for which already C59 is false. -/
theorem C94_linearizable_partial {sv : Server} {clock : Int} {H : Timeline sv clock} {ops : List Operation} (h : Operations H ops) :
    ∃ lin : List Point, (∀ x ∈ lin, ops[x.index]? = some x.op) ∧
      (∀ j o, ops[j]? = some o → Parts (H.st o.start) (H.st o.finish) o.what ((lin.filter fun x => x.index = j).map (·.use))) ∧
      (lin.Pairwise fun x y => ¬ y.op.finish ≤ x.op.start) ∧
      Legal Data.empty (lin.map fun x => (x.use, (H.st x.op.start).clock, (H.st x.op.finish).clock)) (data (H.st H.length)) := by
  -- the parts of each operation
  obtain ⟨r, hr1, hr2⟩ : ∃ r : List (Operation × List (Nat × Use)), r.map (·.1) = ops ∧ ∀ x ∈ r, Placed H x.1 x.2 ∧ Parts (H.st x.1.start) (H.st x.1.finish) x.1.what (x.2.map (·.2)) := by
    have := h.inside
    clear h
    induction ops with
    | nil => exact ⟨[], rfl, by simp⟩
    | cons o ops ih =>
      obtain ⟨r, h1, h2⟩ := ih fun o ho => this o (List.mem_cons_of_mem _ ho)
      obtain ⟨l, h3, h4⟩ := operation_placed H (this o (by simp))
      refine ⟨(o, l) :: r, by rw [List.map_cons, h1], fun x hx => ?_⟩
      rcases List.mem_cons.1 hx with rfl | hx
      · exact ⟨h3, h4⟩
      · exact h2 x hx
  have hr3 : ∀ (i : Nat) o l, r[i]? = some (o, l) → ops[i]? = some o := by
    intro i o l hi
    rw [← hr1, List.getElem?_map, hi]; rfl
  have hperm : ((gather 0 r).mergeSort before).Perm (gather 0 r) := List.mergeSort_perm ..
  have btrans : ∀ x y z : Item, before x y = true → before y z = true → before x z = true := by
    intro x y z h1 h2
    unfold before at *; rw [decide_eq_true_eq] at *; omega
  have btotal : ∀ x y : Item, (before x y || before y x) = true := by
    intro x y
    unfold before; rw [Bool.or_eq_true, decide_eq_true_eq, decide_eq_true_eq]; omega
  have hsorted : ((gather 0 r).mergeSort before).Pairwise fun x y => before x y = true := List.pairwise_mergeSort btrans btotal _
  have hdiffer : ((gather 0 r).mergeSort before).Pairwise Differ := by
    refine (List.Perm.pairwise_iff (fun h e => ?_) hperm).2 (gather_differ H (fun x hx => (hr2 x hx).1) (by rw [hr1]; exact h.apart) 0)
    rw [e]; exact h e.symm
  generalize hs : (gather 0 r).mergeSort before = s at *
  have hmem : ∀ x ∈ s, ∃ l, r[x.index]? = some (x.op, l) ∧ (x.key, x.use) ∈ l := by
    intro x hx
    obtain ⟨i, l, e, h1, h2⟩ := gather_mem (hperm.mem_iff.1 hx)
    rw [Nat.zero_add] at e
    exact ⟨l, by rw [e]; exact h1, h2⟩
  have hok : ∀ x ∈ s, ItemOk H x.op (x.key, x.use) := by
    intro x hx
    obtain ⟨l, h1, h2⟩ := hmem x hx
    exact (hr2 _ (List.mem_of_getElem? h1)).1.ok _ h2
  have hin : ∀ x ∈ s, x.op ∈ ops := by
    intro x hx
    obtain ⟨l, h1, _⟩ := hmem x hx
    exact List.mem_of_getElem? (hr3 _ _ _ h1)
  refine ⟨s.map fun x => ⟨x.index, x.op, x.use⟩, ?_, ?_, ?_, ?_⟩
  · intro x hx
    obtain ⟨y, hy, rfl⟩ := List.mem_map.1 hx
    obtain ⟨l, h1, _⟩ := hmem y hy
    exact hr3 _ _ _ h1
  · intro j o hj
    obtain ⟨l, hl⟩ : ∃ l, r[j]? = some (o, l) := by
      rw [← hr1, List.getElem?_map] at hj
      cases e : r[j]? with
      | none => rw [e] at hj; cases hj
      | some x => rw [e] at hj; cases hj; exact ⟨x.2, rfl⟩
    obtain ⟨g1, g2⟩ := hr2 _ (List.mem_of_getElem? hl)
    have e : s.filter (fun x => x.index = j) = l.map fun x => ⟨j, o, x.1, x.2⟩ := by
      have hf := gather_filter (j := 0) hl
      rw [Nat.zero_add] at hf
      have hp := hperm.filter fun x => decide (x.index = j)
      rw [hf] at hp
      have hle : (l.map fun x => (⟨j, o, x.1, x.2⟩ : Item)).Pairwise fun x y => before x y = true := by
        rw [List.pairwise_map]
        have := g1.sorted
        rw [List.pairwise_map] at this
        refine this.imp fun h => ?_
        unfold before
        rw [decide_eq_true_eq]
        dsimp only
        omega
      have hsub := List.sublist_mergeSort btrans btotal hle (hf ▸ List.filter_sublist (p := fun x : Item => decide (x.index = j)) (l := gather 0 r))
      rw [hs] at hsub
      have hsub := hsub.filter fun x => decide (x.index = j)
      rw [List.filter_eq_self.2 (fun x hx => by obtain ⟨y, _, rfl⟩ := List.mem_map.1 hx; simp)] at hsub
      exact (hsub.eq_of_length (by rw [hp.length_eq])).symm
    rw [List.filter_map, List.map_map]
    show Parts (H.st o.start) (H.st o.finish) o.what ((s.filter fun x => x.index = j).map fun x => x.use)
    rw [e, List.map_map]
    exact g2
  · rw [List.pairwise_map]
    refine (List.pairwise_iff_forall_sublist.2 fun {x y} hxy => ?_)
    have hx : x ∈ s := hxy.subset (by simp)
    have hy : y ∈ s := hxy.subset (by simp)
    have hb := List.pairwise_iff_forall_sublist.1 hsorted hxy
    unfold before at hb
    rw [decide_eq_true_eq] at hb
    intro hle
    dsimp only at hle
    obtain ⟨b1, _⟩ := in_bounds H (h.inside _ (hin y hy))
    have lo : 2 * x.op.start ≤ x.key := by
      rcases hok x hx with ⟨m, e, h1, _⟩ | ⟨m, e, h1, _⟩ <;> dsimp only at e <;> omega
    have hi : y.key ≤ 2 * y.op.finish := by
      rcases hok y hy with ⟨m, e, _, h1, _⟩ | ⟨m, e, _, h1, _⟩ <;> dsimp only at e <;> omega
    omega
  · rw [List.map_map, ← data_new sv clock, ← H.start]
    refine legal_of_sorted H (Nat.zero_le _) (hsorted.imp fun h => ?_) hdiffer hok (fun x hx => (in_bounds H (h.inside _ (hin x hx))).2) (fun x _ => by omega) ?_
    · unfold before at h
      rw [decide_eq_true_eq] at h
      omega
    · intro i _ hi hc
      obtain ⟨w, hw⟩ : ∃ w, changedBy (H.ev i) = some w := by
        refine Option.isSome_iff_exists.1 (Classical.byContradiction fun h' => hc ?_)
        exact idle_data (H.run (Nat.le_succ i) hi) fun e he => by
          rw [H.slice_succ (Nat.lt_succ_self i), H.slice_self, List.mem_singleton] at he
          rw [he]; simpa using h'
      obtain ⟨o, ho, e1, e2, e3⟩ := h.all i hi w hw
      obtain ⟨j, hj⟩ := List.getElem?_of_mem ho
      obtain ⟨l, hl⟩ : ∃ l, r[j]? = some (o, l) := by
        rw [← hr1, List.getElem?_map] at hj
        cases e : r[j]? with
        | none => rw [e] at hj; cases hj
        | some x => rw [e] at hj; cases hj; exact ⟨x.2, rfl⟩
      have := (hr2 _ (List.mem_of_getElem? hl)).1.all i e2 e3 (by rw [hw, e1])
      have this := this.resolve_right hc
      obtain ⟨x, hx, e4⟩ := List.mem_map.1 this
      exact ⟨_, hperm.mem_iff.2 (mem_gather (j := 0) hl hx), e4⟩

end KM.Props
