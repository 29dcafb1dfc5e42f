import Verif.Props.Moment
import Verif.Props.LinearCases
/-
C98: what is learnt of a partition by one request after the other, on whatever connections, and what is posted to it in between, is the story of one growing log.
-/
namespace KM.Props
open KM Spec

/-- What is learnt of a partition, or done to it: the records from an offset on (Fetch); the end of the log (ListOffsets with timestamp -1); that it does not exist
(ListOffsets, code 3); a record is posted. -/
inductive Fact where
  | records (offset : Int) (msgs : List MessageV1)
  | latest (n : I64)
  | missing
  | posted (c : PostCall)

/-- The fact is right of a partition whose log was `before` the last time, and is `after` now. A post has added its record at the end. -/
def Fact.Says (before after : List Record) : Fact → Prop
  | .records offset msgs => Labelled offset (after.drop offset.toNat) msgs
  | .latest n => n = BitVec.ofNat 64 after.length
  | .missing => after = []
  | .posted c => ∃ l r, after = l ++ [r] ∧ before <+: l ∧ ∃ t0 t1, c.Matches t0 t1 r

/-- The facts are right, one after the other, of a log that only grows, from `l` to `l'`. -/
inductive Grows : List Record → List Fact → List Record → Prop where
  | done {l l' : List Record} (h : l <+: l') : Grows l [] l'
  | next {l l1 l' : List Record} {f : Fact} {fs : List Fact} (h : l <+: l1) (right : f.Says l l1) (rest : Grows l1 fs l') : Grows l (f :: fs) l'

/-- The fact is learnt of partition `p` of topic `t` between `s1` and `s2`: from the answer to a request taken up in `s1` and answered in `s2`; or a call of a posting
function from `s1` to `s2`. Fetch requests name one partition per topic (C35), no record is 2 GiB or more, nor is the answer. -/
inductive Learnt (sv : Server) (clock : Int) (t : Bytes) (p : I32) : Sys → Fact → Sys → Prop where
  | records {k : Nat} {q : FetchRequest} {c : I32} {t1 tr : List SEv} {s1 s2 : Sys} {x : List (Bytes × List Client.FetchedPartition)} {qt : FetchTopic}
      {rt : Bytes × List Client.FetchedPartition} {par : FetchPartition} {fp : Client.FetchedPartition}
      (h : Exchange sv clock k (.fetch q) c t1 s1 tr s2) (single : ∀ t ∈ q.topics, ∃ p, t.partitions = [p])
      (hs : ∀ t p, ∀ r ∈ (s2.view 0).log t p, wireSize r < 2 ^ 31) (hl : (sent (actsOf k tr)).length < 2 ^ 31)
      (hx : Client.response Client.fetch (sent (actsOf k tr)) = some ((c, 0, x), []))
      (ht : (qt, rt) ∈ q.topics.zip x) (hp : (par, fp) ∈ qt.partitions.zip rt.2) (et : qt.topic = t) (ep : par.partition = p) :
      Learnt sv clock t p s1 (.records par.fetchOffset.toInt fp.messages) s2
  | latest {k : Nat} {q : ListOffsetsRequest} {c : I32} {t1 tr : List SEv} {s1 s2 : Sys} {x : ListOffsetsResponse} {qt : ListOffsetsTopic}
      {rt : ListOffsetsRespTopic} {qp : ListOffsetsPartition} {rp : ListOffsetsRespPartition}
      (h : Exchange sv clock k (.listOffsets q) c t1 s1 tr s2) (hx : Client.response Client.listOffsets (sent (actsOf k tr)) = some ((c, x), []))
      (ht : (qt, rt) ∈ q.topics.zip x.topics) (hp : (qp, rp) ∈ qt.partitions.zip rt.partitions) (et : qt.name = t) (ep : qp.partitionIndex = p)
      (hq : qp.timestamp.toInt = -1) (he : rp.errorCode = 0) : Learnt sv clock t p s1 (.latest rp.offset) s2
  | missing {k : Nat} {q : ListOffsetsRequest} {c : I32} {t1 tr : List SEv} {s1 s2 : Sys} {x : ListOffsetsResponse} {qt : ListOffsetsTopic}
      {rt : ListOffsetsRespTopic} {qp : ListOffsetsPartition} {rp : ListOffsetsRespPartition}
      (h : Exchange sv clock k (.listOffsets q) c t1 s1 tr s2) (hx : Client.response Client.listOffsets (sent (actsOf k tr)) = some ((c, x), []))
      (ht : (qt, rt) ∈ q.topics.zip x.topics) (hp : (qp, rp) ∈ qt.partitions.zip rt.partitions) (et : qt.name = t) (ep : qp.partitionIndex = p)
      (he : rp.errorCode = 3) : Learnt sv clock t p s1 .missing s2
  | posted {i : Nat} {c : PostCall} {tr : List SEv} {s1 s2 : Sys} (h : CallRun s1 i c.call tr s2) (ht : c.targets t p) : Learnt sv clock t p s1 (.posted c) s2

/-- In a run of the mock from `s` to `s'`, these facts are learnt one after the other, by anyone; anything else may happen at any time. -/
inductive Story (sv : Server) (clock : Int) (t : Bytes) (p : I32) : Sys → List Fact → Sys → Prop where
  | done {s s' : Sys} {tr : List SEv} (h : Sys.Run s tr s') : Story sv clock t p s [] s'
  | next {s s1 s2 s' : Sys} {tr : List SEv} {f : Fact} {fs : List Fact} (h : Sys.Run s tr s1) (learnt : Learnt sv clock t p s1 f s2) (rest : Story sv clock t p s2 fs s') :
      Story sv clock t p s (f :: fs) s'

theorem run_prefix {s s' : Sys} {tr : List SEv} (h : Sys.Run s tr s') (t : Bytes) (p : I32) : (s.view 0).log t p <+: (s'.view 0).log t p :=
  ⟨_, ((C46_kept h).1 t p).symm⟩

theorem forall₂_pair {α β : Type} {R : α → β → Prop} {l : List α} {l' : List β} (h : List.Forall₂ R l l') {a : α} {b : β} (hm : (a, b) ∈ l.zip l') : R a b := by
  induction h with
  | nil => cases hm
  | cons h1 _ ih =>
    rw [List.zip_cons_cons, List.mem_cons] at hm
    rcases hm with e | hm
    · cases e; exact h1
    · exact ih hm

/-- Where a fact is learnt: the log at the beginning is a prefix of a log of which the fact is right, which is a prefix of the log at the end. -/
theorem learnt_says {sv : Server} {clock : Int} {t : Bytes} {p : I32} {s1 s2 : Sys} {f : Fact} (h : Learnt sv clock t p s1 f s2) {l : List Record}
    (hl : l <+: (s1.view 0).log t p) : ∃ l1, l <+: l1 ∧ f.Says l l1 ∧ l1 <+: (s2.view 0).log t p := by
  cases h with
  | records h single hs hl' hx ht hp et ep =>
    obtain ⟨x', g1, g2⟩ := C73_fetch_partial h single hs hl'
    rw [hx] at g1; cases g1
    obtain ⟨_, g3⟩ := forall₂_pair g2 ht
    obtain ⟨_, _, _, _, _, sm, _, g4, g5, g6⟩ := forall₂_pair g3 hp
    subst et ep
    exact ⟨_, hl.trans (run_prefix g4 _ _), g6, run_prefix g5 _ _⟩
  | latest h hx ht hp et ep hq he =>
    obtain ⟨x', g1, g2⟩ := C73_list_offsets_partial h
    rw [hx] at g1; cases g1
    obtain ⟨_, g3⟩ := forall₂_pair g2 ht
    obtain ⟨_, _, _, sm, _, g4, g5, g6⟩ := forall₂_pair g3 hp
    subst et ep
    rcases g6 with ⟨_, g6⟩ | ⟨_, _, g6, _⟩
    · rw [he] at g6; cases g6
    · exact ⟨_, hl.trans (run_prefix g4 _ _), g6 hq, run_prefix g5 _ _⟩
  | missing h hx ht hp et ep he =>
    obtain ⟨x', g1, g2⟩ := C73_list_offsets_partial h
    rw [hx] at g1; cases g1
    obtain ⟨_, g3⟩ := forall₂_pair g2 ht
    obtain ⟨_, _, _, sm, _, g4, g5, g6⟩ := forall₂_pair g3 hp
    subst et ep
    rcases g6 with ⟨g6, _⟩ | ⟨_, g6, _⟩
    · exact ⟨_, hl.trans (run_prefix g4 _ _), log_missing g6, run_prefix g5 _ _⟩
    · rw [he] at g6; cases g6
  | @posted i c tr _ _ h ht =>
    obtain ⟨sa, h1, h2⟩ := h.run
    obtain ⟨ta, tb, r, _, _, _, h3, h4⟩ := C57_post_takes_effect h1 h.idle h2 h.inside h.returns
    obtain ⟨rfl, rfl⟩ := ht
    refine ⟨(s1.view 0).log c.topic (BitVec.ofInt 32 c.partition) ++ Spec.posts (effectsOf ta) c.topic (BitVec.ofInt 32 c.partition) ++ [r], ?_, ?_, ?_⟩
    · rw [List.append_assoc]; exact hl.trans (List.prefix_append _ _)
    · exact ⟨_, r, rfl, hl.trans (List.prefix_append _ _), _, _, h3⟩
    · rw [h4]; exact ⟨Spec.posts (effectsOf tb) c.topic (BitVec.ofInt 32 c.partition), by simp⟩

/-- **C98**: the facts that are learnt of a partition one after the other, and the posts to it in between, are right of one log that only grows, which begins with what was
there at first and ends with what is there at last. -/
theorem C98_grows {sv : Server} {clock : Int} {t : Bytes} {p : I32} {s s' : Sys} {fs : List Fact} (h : Story sv clock t p s fs s') :
    Grows ((s.view 0).log t p) fs ((s'.view 0).log t p) := by
  have key : ∀ {s s' : Sys} {fs : List Fact}, Story sv clock t p s fs s' → ∀ l, l <+: (s.view 0).log t p → Grows l fs ((s'.view 0).log t p) := by
    intro s s' fs h
    induction h with
    | done h => exact fun l hl => .done (hl.trans (run_prefix h _ _))
    | next h hl' _ ih =>
      intro l hl
      obtain ⟨l1, h1, h2, h3⟩ := learnt_says hl' (hl.trans (run_prefix h _ _))
      exact .next h1 h2 (ih _ h3)
  exact key h _ (List.prefix_refl _)

/-! ### What follows from it for those who read and post -/

theorem Grows.prefix {l l' : List Record} {fs : List Fact} (h : Grows l fs l') : l <+: l' := by
  induction h with
  | done h => exact h
  | next h _ _ ih => exact h.trans ih

/-- What comes later in the story is right of a longer log. -/
theorem Grows.later {l l' : List Record} {fs gs : List Fact} {f : Fact} (h : Grows l (fs ++ f :: gs) l') :
    ∃ l0 l1, l <+: l0 ∧ l0 <+: l1 ∧ f.Says l0 l1 ∧ Grows l1 gs l' := by
  induction fs generalizing l with
  | nil =>
    cases h with
    | next h1 h2 h3 => exact ⟨l, _, List.prefix_refl _, h1, h2, h3⟩
  | cons g fs ih =>
    cases h with
    | next h1 _ h3 =>
      obtain ⟨l0, l1, a, b, d⟩ := ih h3
      exact ⟨l0, l1, h1.trans a, b, d⟩

/-- Two facts of the story, one after the other: they are right of two logs, of which the second extends the first. -/
theorem Story.two {sv : Server} {clock : Int} {t : Bytes} {p : I32} {s s' : Sys} {a b d : List Fact} {f g : Fact}
    (h : Story sv clock t p s (a ++ f :: (b ++ g :: d)) s') :
    ∃ l0 l1 l2 l3, l0 <+: l1 ∧ l1 <+: l2 ∧ l2 <+: l3 ∧ f.Says l0 l1 ∧ g.Says l2 l3 ∧ Grows l3 d ((s'.view 0).log t p) := by
  obtain ⟨l0, l1, _, h1, h2, h3⟩ := (C98_grows h).later
  obtain ⟨l2, l3, h4, h5, h6, h7⟩ := h3.later
  exact ⟨l0, l1, l2, l3, h1, h4, h5, h2, h6, h7⟩

theorem toInt_small {n : Nat} (h : n < 2 ^ 63) : (BitVec.ofNat 64 n).toInt = n := by
  rw [BitVec.toInt_eq_toNat_of_lt] <;> rw [BitVec.toNat_ofNat] <;> omega

/-- **C98**: the end of the log never goes back. -/
theorem C98_latest {sv : Server} {clock : Int} {t : Bytes} {p : I32} {s s' : Sys} {a b d : List Fact} {n m : I64}
    (h : Story sv clock t p s (a ++ .latest n :: (b ++ .latest m :: d)) s') (hn : ((s'.view 0).log t p).length < 2 ^ 63) : n.toInt ≤ m.toInt := by
  obtain ⟨l0, l1, l2, l3, h1, h2, h3, h4, h5, h6⟩ := h.two
  have e1 : l1.length ≤ l3.length := (h2.trans h3).length_le
  have e2 := h6.prefix.length_le
  rw [show n = _ from h4, show m = _ from h5, toInt_small (by omega), toInt_small (by omega)]
  omega

/-- **C98**: who fetches again from the same offset gets the same records again, and perhaps more. -/
theorem C98_again {sv : Server} {clock : Int} {t : Bytes} {p : I32} {s s' : Sys} {a b d : List Fact} {o : Int} {m1 m2 : List MessageV1}
    (h : Story sv clock t p s (a ++ .records o m1 :: (b ++ .records o m2 :: d)) s') :
    m1.map (fun m => (m.offset, m.timestamp, m.key, m.value)) <+: m2.map (fun m => (m.offset, m.timestamp, m.key, m.value)) := by
  obtain ⟨l0, l1, l2, l3, h1, h2, h3, h4, h5, h6⟩ := h.two
  have h4 : Labelled o (l1.drop o.toNat) m1 := h4
  have h5 : Labelled o (l3.drop o.toNat) m2 := h5
  rw [labelled_eq h4, labelled_eq h5]
  obtain ⟨x, rfl⟩ := h2.trans h3
  rw [List.drop_append, List.mapIdx_append]
  exact List.prefix_append _ _

/-- **C98**: who has been told the end of the log gets every record up to it. -/
theorem C98_up_to_end {sv : Server} {clock : Int} {t : Bytes} {p : I32} {s s' : Sys} {a b d : List Fact} {n : I64} {o : Int} {ms : List MessageV1}
    (h : Story sv clock t p s (a ++ .latest n :: (b ++ .records o ms :: d)) s') (ho : 0 ≤ o) (hn : ((s'.view 0).log t p).length < 2 ^ 63) :
    n.toInt ≤ o + ms.length := by
  obtain ⟨l0, l1, l2, l3, h1, h2, h3, h4, h5, h6⟩ := h.two
  have e1 : l1.length ≤ l3.length := (h2.trans h3).length_le
  have e2 := h6.prefix.length_le
  have h5 : Labelled o (l3.drop o.toNat) ms := h5
  rw [h5.1, List.length_drop, show n = _ from h4, toInt_small (by omega)]
  omega

/-- **C98**: of two posts one after the other, the record of the first comes before the record of the second, for whoever fetches them. -/
theorem C98_post_order {sv : Server} {clock : Int} {t : Bytes} {p : I32} {s s' : Sys} {a b d e : List Fact} {c1 c2 : PostCall} {ms : List MessageV1}
    (h : Story sv clock t p s (a ++ .posted c1 :: (b ++ .posted c2 :: (d ++ .records 0 ms :: e))) s') :
    ∃ (i j : Nat) (m1 m2 : MessageV1), i < j ∧ ms[i]? = some m1 ∧ ms[j]? = some m2 ∧ m1.key = c1.key ∧ m1.value = c1.value ∧ m2.key = c2.key ∧ m2.value = c2.value := by
  obtain ⟨l0, l1, l2, l3, h1, h2, h3, h4, h5, h6⟩ := h.two
  obtain ⟨l4, l5, h7, h8, h9, _⟩ := h6.later
  obtain ⟨k1, r1, rfl, _, _, _, _, a1, a2, _⟩ := h4
  obtain ⟨k2, r2, rfl, g, _, _, _, b1, b2, _⟩ := h5
  have h9 : Labelled 0 l5 ms := h9
  obtain ⟨x, rfl⟩ := h2.trans g
  obtain ⟨y, rfl⟩ := h7.trans h8
  have hlen := h9.1
  simp only [List.length_append, List.length_cons, List.length_nil] at hlen
  have e1 : (k1 ++ [r1] ++ x ++ [r2] ++ y)[k1.length]? = some r1 := by simp
  have e2 : (k1 ++ [r1] ++ x ++ [r2] ++ y)[k1.length + 1 + x.length]? = some r2 := by
    have hk : (k1 ++ [r1] ++ x).length = k1.length + 1 + x.length := by simp; omega
    rw [List.append_assoc, ← hk]; exact List.getElem?_append_right (Nat.le_refl _) |>.trans (by simp)
  have q1 := List.getElem?_eq_getElem (l := ms) (i := k1.length) (by omega)
  have q2 := List.getElem?_eq_getElem (l := ms) (i := k1.length + 1 + x.length) (by omega)
  obtain ⟨_, _, f1, f2, _⟩ := h9.2 _ _ _ e1 q1
  obtain ⟨_, _, f3, f4, _⟩ := h9.2 _ _ _ e2 q2
  exact ⟨_, _, _, _, by omega, q1, q2, f1.trans a1, f2.trans a2, f3.trans b1, f4.trans b2⟩

/-! ### Example -/

/-- The end of the log has been asked for after the post, and the connection is done with the request. -/
def toldEnd : Sys := stateAfter [.conn 0] (answered 0 8 askLatest 7 postedState)

/-- The answer to it: two records; the other partition does not exist. -/
def endAnswer : ListOffsetsResponse := ⟨[⟨[116], [⟨0, 0, 0, 2⟩, ⟨5, 3, 0, 0⟩]⟩]⟩

/-- The messages of a Fetch thereafter. -/
def fetchedThen : List MessageV1 :=
  ((Client.response Client.fetch (sent (actsOf 0 (during 0 12 askFetch 8 toldEnd)))).map fun y => y.1.2.2.flatMap fun t => t.2.flatMap (·.messages)).getD []

set_option maxRecDepth 100000 in
theorem fetchedThen_values : fetchedThen.map (fun m => (m.offset, m.value)) = [(0, some [1, 2]), (1, some [3])] := by decide +kernel

set_option maxRecDepth 100000 in
/-- The hypotheses of `C98_grows` and its corollaries: a record is posted, the end of the log is asked for, the records are fetched. -/
example : Story ⟨9092, []⟩ 0 [116] 0 oneRecord [.posted posting, .latest 2, .records 0 fetchedThen] (answered 0 12 askFetch 8 toldEnd) := by
  obtain ⟨t0, h⟩ := called_run 4 posting.call _ rfl
  have ha := exchange_of_play h 0 8 askLatest 7 askLatest_wf (by decide +kernel)
  obtain ⟨tt, ht⟩ := taken_run 0 askLatest 7 postedState
  have hr : Sys.Run (answered 0 8 askLatest 7 postedState) _ toldEnd := stateAfter_run [.conn 0] _
  have h2 : Sys.Run (Sys.new ⟨9092, []⟩ 0) _ toldEnd := ((h.append ht).append (stateAfter_run (List.replicate 8 (.conn 0)) _)).append hr
  have hb := exchange_of_play h2 0 12 askFetch 8 askFetch_wf (by decide +kernel)
  obtain ⟨tu, hu⟩ := taken_run 0 askFetch 8 toldEnd
  have hs : ∀ t p, ∀ r ∈ ((answered 0 12 askFetch 8 toldEnd).view 0).log t p, wireSize r < 2 ^ 31 :=
    (roomy_of (k := 0) (tr := []) (by decide +kernel) (by decide)).records
  refine .next (.nil _) (.posted posting_run ⟨rfl, rfl⟩) (.next ht (.latest (qt := ⟨[116], [⟨0, -1⟩, ⟨5, -1⟩]⟩) (rt := ⟨[116], [⟨0, 0, 0, 2⟩, ⟨5, 3, 0, 0⟩]⟩) (qp := ⟨0, -1⟩)
    (rp := ⟨0, 0, 0, 2⟩) (x := endAnswer) ha (by decide +kernel) (by decide +kernel) (by decide +kernel) rfl rfl rfl rfl)
    (.next (hr.append hu) ?_ (.done (.nil _))))
  have hl : (sent (actsOf 0 (during 0 12 askFetch 8 toldEnd))).length < 2 ^ 31 := by decide +kernel
  have single : ∀ t ∈ [(⟨[116], [⟨0, 0, 1000⟩]⟩ : FetchTopic)], ∃ p, t.partitions = [p] := by
    intro t ht
    rw [List.mem_singleton] at ht; subst ht; exact ⟨_, rfl⟩
  obtain ⟨x, hx, hf⟩ := C73_fetch_partial hb single hs hl
  obtain ⟨⟨t, fps⟩, x1, ⟨_, h3⟩, h4, rfl⟩ := List.forall₂_cons_left_iff.1 hf
  cases h4
  obtain ⟨fp, y, _, h6, e⟩ := List.forall₂_cons_left_iff.1 h3
  cases h6
  simp only at e
  subst e
  have hm : fetchedThen = fp.messages := by
    unfold fetchedThen; rw [hx]; simp
  rw [hm]
  exact .records (qt := ⟨[116], [⟨0, 0, 1000⟩]⟩) (par := ⟨0, 0, 1000⟩) hb single hs hl hx (List.mem_cons_self ..) (List.mem_cons_self ..) rfl rfl

end KM.Props
