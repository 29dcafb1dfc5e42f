import Verif.Props.Least
import Verif.Props.Visible

/-!
# A consumer group whose members take turns receives every record exactly once, as its members see it

C113: the commit that a member has seen acknowledged is what the next member goes on from. First for commits alone (C27 and C60 at the ends of the connections), then for a group whose
members take turns (C71 at the ends of the connections).
-/

namespace KM.Props

open KM KM.Spec

/-- The client of connection `c` has sent, as its message `i`, an OffsetCommit request for group `g` with offset `o` for partition `p` of topic `t`, and has received the response, which says
for that partition that there is no error. -/
inductive CommitAcked (tr : List NEv) (c i : Nat) (t : Bytes) (p : I32) (g : Bytes) (o : I64) : Prop where
  | mk {msg r b : Bytes} {q : CommitRequest} {corr : I32} {client : Option Bytes} {x : CommitResponse} {j l : Nat} {qt : CommitTopic} {rt : CommitRespTopic} {qp : CommitPartition}
      {rp : CommitRespPartition} (hm : (frames (asked c tr))[i]? = some msg) (ha : Accepted (.offsetCommit q) corr client msg) (hb : FitsBuffer (.offsetCommit q) corr client)
      (hg : q.groupId = g) (hr : (frames (got c tr))[i]? = some r) (hf : Framed b [r]) (hd : Client.response Client.commit b = some ((corr, x), [])) (hqt : q.topics[j]? = some qt)
      (hrt : x.topics[j]? = some rt) (hqp : qt.partitions[l]? = some qp) (hrp : rt.partitions[l]? = some rp) (hn : qt.name = t) (hp : qp.partitionIndex = p) (ho : qp.committedOffset = o)
      (he : rp.errorCode = 0)

/-- The client of connection `c` has sent, as its message `i`, an OffsetFetch request for group `g`, and has received the response, which says that the committed offset of partition `p` of
topic `t` is `o`. -/
inductive OffsetRead (tr : List NEv) (c i : Nat) (t : Bytes) (p : I32) (g : Bytes) (o : I64) : Prop where
  | mk {msg r b : Bytes} {q : OffsetFetchRequest} {corr : I32} {client : Option Bytes} {x : OffsetFetchResponse} {rt : OffsetFetchRespTopic} {rp : OffsetFetchRespPartition}
      (hm : (frames (asked c tr))[i]? = some msg) (ha : Accepted (.offsetFetch q) corr client msg) (hb : FitsBuffer (.offsetFetch q) corr client) (hg : q.groupId = g)
      (hr : (frames (got c tr))[i]? = some r) (hf : Framed b [r]) (hd : Client.response Client.offsetFetch b = some ((corr, x), []))
      (ht : rt ∈ x.topics) (hn : rt.name = t) (hp : rp ∈ rt.partitions) (hi : rp.partitionIndex = p) (ho : rp.committedOffset = o)

theorem OffsetRead.session {tr : List NEv} {c i : Nat} {t g : Bytes} {p : I32} {o : I64} (h : OffsetRead tr c i t p g o) {ps : List Poll} (hp : Polled tr t p o ps) : GroupSession tr g t p o ps := by
  obtain ⟨hm, ha, hb, hg, hr, hf, hd, ht, hn, hp', hi, ho⟩ := h
  exact ⟨hm, ha, hb, hg, hr, hf, hd, ht, hn, hp', hi, ho, hp⟩

/-- The message that the mock takes up is the one that the client knows. -/
theorem same_message {c i : Nat} {a b : List NEv} {m m' : Bytes} (h : (frames (asked c (a ++ b)))[i]? = some m) (h' : (frames (asked c a))[i]? = some m') : m' = m := by
  rw [asked_append, frame_more h'] at h
  exact Option.some.inj h

/-- **C113**, commits: when a client has received the response to an OffsetCommit request, without error for a partition, every OffsetFetch request of the same group for the partition that any
client completes after that is answered with an entry for the partition, and with an offset of at least the committed one, if no test sets the group's offset. -/
theorem C113_commits {sv : Server} {clock : Int} {ta tb : List NEv} {na n : Net} (h1 : Net.Run (Net.new sv clock) ta na) (h2 : Net.Run na tb n) {c d i j : Nat}
    (hs : SmallReplies sv (actsOf c (mocks ta))) (hs' : SmallReplies sv (actsOf d (mocks (ta ++ tb)))) {t g : Bytes} {p : I32} {o : I64} (hc : CommitAcked ta c i t p g o)
    (hn : NotSet sv clock (ta ++ tb) g t p) (hlate : (frames (asked d ta)).length ≤ j) {msg r : Bytes} {q : OffsetFetchRequest} {corr : I32} {client : Option Bytes}
    (hm : (frames (asked d (ta ++ tb)))[j]? = some msg) (ha : Accepted (.offsetFetch q) corr client msg) (hb : FitsBuffer (.offsetFetch q) corr client) (hg : q.groupId = g)
    (hr : (frames (got d (ta ++ tb)))[j]? = some r) :
    ∃ b x, Framed b [r] ∧ Client.response Client.offsetFetch b = some ((corr, x), []) ∧
      ((∃ y ∈ q.topics, y.name = t ∧ p ∈ y.partitionIndexes) → ∃ y ∈ x.topics, y.name = t ∧ ∃ z ∈ y.partitions, z.partitionIndex = p) ∧
      ∀ y ∈ x.topics, y.name = t → ∀ z ∈ y.partitions, z.partitionIndex = p → o.toInt ≤ z.committedOffset.toInt := by
  obtain ⟨cm, ca, cb, cg, cr, cf, cd, cqt, crt, cqp, crp, rfl, rfl, rfl, ce⟩ := hc
  obtain ⟨u1, m1, u2, pl1, u3, n1, n2, req1, corr1, client1, e1, e2, e3, e4, e5, e6, e7, e8, e9, _⟩ := C106 h1 c hs cr
  obtain ⟨v1, m2, v2, pl2, v3, n3, n4, req2, corr2, client2, f1, f2, f3, f4, f5, f6, f7, f8, f9, _⟩ := C106_after h1 h2 d hs' hlate hr
  cases same_message (b := [.mock (.conn c (.reqBegin m1) ())] ++ ((u2 ++ [.mock (.conn c (.write pl1) true)]) ++ u3)) (by rw [← List.append_assoc, ← e1]; exact cm) e5
  cases same_message (b := [.mock (.conn d (.reqBegin m2) ())] ++ ((v2 ++ [.mock (.conn d (.write pl2) true)]) ++ v3))
    (by rw [show ta ++ v1 ++ ([.mock (.conn d (.reqBegin m2) ())] ++ ((v2 ++ [.mock (.conn d (.write pl2) true)]) ++ v3)) = ta ++ tb by rw [f1]; simp]; exact hm) f5
  obtain ⟨rfl, rfl, _⟩ := C103_unambiguous (e := []) (e' := []) ca cb e6 e7 rfl
  obtain ⟨rfl, rfl, _⟩ := C103_unambiguous (e := []) (e' := []) ha hb f6 f7 rfl
  obtain ⟨x, x', k1, k2, k3⟩ := C60_commits e8 (e4.append f2).sys f8 (hg.trans cg.symm)
  cases framed_unique cf e9
  rw [cd] at k1; cases k1
  obtain ⟨k4, k5⟩ := forall₂_getElem? k3 cqt crt
  obtain ⟨k6, k7⟩ := forall₂_getElem? k5 cqp crp
  have k8 := k7 ce (fun o' ho' => by
    rw [cg] at ho'
    obtain ⟨o'', _, k, i, m', n0, g1, g2⟩ := (effect_origin (h1.append h2) (x := .reset _ _ _ o') (by
      rw [e1, f1]
      simp only [mocks_append, effectsOf_append, List.mem_append] at ho' ⊢
      tauto)).2 _ _ _ _ rfl
    exact hn _ _ _ _ _ g1 g2)
  refine ⟨_, x', f9, k2, fun hask => (k8 hask).1, fun y hy hyn z hz hzp => ?_⟩
  obtain ⟨x'', w1, _, _, w2⟩ := C59_offset_fetch f8
  rw [k2] at w1; cases w1
  obtain ⟨⟨qt, w3, w4, w5⟩, _⟩ := w2 y hy z hz
  exact (k8 ⟨qt, w3, w4.trans hyn, hzp ▸ w5⟩).2 y hy hyn z hz hzp

/-- **C113**, commits: if moreover no commit of a larger offset has been sent, what is read is that offset. -/
theorem C113_exact {sv : Server} {clock : Int} {ta tb : List NEv} {na n : Net} (h1 : Net.Run (Net.new sv clock) ta na) (h2 : Net.Run na tb n) {c d i j : Nat}
    (hs : SmallReplies sv (actsOf c (mocks ta))) (hs' : SmallReplies sv (actsOf d (mocks (ta ++ tb)))) {t g : Bytes} {p : I32} {o o' : I64} (hc : CommitAcked ta c i t p g o)
    (hn : NotSet sv clock (ta ++ tb) g t p) (hlate : (frames (asked d ta)).length ≤ j) (hr : OffsetRead (ta ++ tb) d j t p g o')
    (hmax : ∀ k l x, CommitSent (ta ++ tb) k l t p g x → x.toInt ≤ o.toInt) (h0 : 0 ≤ o.toInt) : o' = o := by
  obtain ⟨hm, ha, hb, hg, hr, hf, hd, ht, hname, hp, hi, ho⟩ := hr
  obtain ⟨b, x, k1, k2, _, k3⟩ := C113_commits h1 h2 hs hs' hc hn hlate hm ha hb hg hr
  cases framed_unique hf k1
  rw [hd] at k2; cases k2
  have k3 := k3 _ ht hname _ hp hi
  obtain ⟨u, v, e1, _, e3⟩ := C110_offset_read (h1.append h2) hs' hm ha hb hr hf hd
  obtain ⟨e3, _⟩ := e3 _ ht _ hp
  rw [hname, hi, hg, ho] at e3
  rw [ho] at k3
  refine BitVec.eq_of_toInt_eq (Int.le_antisymm ?_ k3)
  rcases e3 with rfl | ⟨k, l, e3⟩ | ⟨k, i, m', n0, e3, e4⟩
  · exact h0
  · exact hmax k l _ (by rw [e1]; exact e3.more v)
  · exact absurd e4 (hn _ _ _ _ _ (by rw [e1]; exact e3.more v))

/-! ### Members that take turns -/

/-- The members of group `g` take turns in reading the partition. The first begins at the committed offset, `first`, that it reads, and fetches from there. When a member has committed the
offset it has got to and has received the response, another one (or itself) may begin, at the offset that it reads, and fetch from there; until it has read it, nobody has sent a commit of a
larger offset for the group. These are the fetches, except those of members that stopped without having committed what they had received. -/
inductive Relay (g t : Bytes) (p : I32) (first : I64) : List NEv → List Poll → Prop where
  | first {ta tb : List NEv} {d j : Nat} {ps : List Poll} (ho : OffsetRead ta d j t p g first) (hp : Polled (ta ++ tb) t p first ps) : Relay g t p first (ta ++ tb) ps
  | next {ta tb tc td : List NEv} {c i d j : Nat} {start : I64} {ps qs : List Poll} (h : Relay g t p first ta ps)
      (hc : CommitAcked (ta ++ tb) c i t p g (nextOffset first (pollMessages ps))) (hlate : (frames (asked d (ta ++ tb))).length ≤ j) (ho : OffsetRead (ta ++ tb ++ tc) d j t p g start)
      (hmax : ∀ k l x, CommitSent (ta ++ tb ++ tc) k l t p g x → x.toInt ≤ (nextOffset first (pollMessages ps)).toInt) (hp : Polled (ta ++ tb ++ tc ++ td) t p start qs) :
      Relay g t p first (ta ++ tb ++ tc ++ td) (ps ++ qs)

theorem Polled.join {tr : List NEv} {t : Bytes} {p : I32} {first : I64} {ps qs : List Poll} (h : Polled tr t p first ps) (h' : Polled tr t p (nextOffset first (pollMessages ps)) qs) :
    Polled tr t p first (ps ++ qs) := by
  induction h' with
  | none => rwa [List.append_nil]
  | @more qs x _ hx ih =>
    rw [← List.append_assoc]
    refine .more ih ?_
    have : nextOffset first (pollMessages (ps ++ qs)) = nextOffset (nextOffset first (pollMessages ps)) (pollMessages qs) := by
      simp only [nextOffset, pollMessages, List.flatMap_append, List.getLast?_append]
      cases (qs.flatMap (·.msgs)).getLast? <;> rfl
    rwa [this]

/-- Members that take turns fetch as one consumer. -/
theorem Relay.polled {sv : Server} {clock : Int} {g t : Bytes} {p : I32} {first : I64} {tr : List NEv} {ps : List Poll} (hy : Relay g t p first tr ps) {n : Net}
    (h : Net.Run (Net.new sv clock) tr n) (hroom : ∀ t p, ∀ x ∈ (n.sys.view 0).log t p, wireSize x < 2 ^ 31) (hs : ∀ c, SmallReplies sv (actsOf c (mocks tr)))
    (hlen : first.toInt + ((n.sys.view 0).log t p).length < 2 ^ 63) (hn : NotSet sv clock tr g t p) : Polled tr t p first ps ∧ 0 ≤ first.toInt := by
  have left : ∀ {tr tb : List NEv}, (∀ c, SmallReplies sv (actsOf c (mocks (tr ++ tb)))) → ∀ c, SmallReplies sv (actsOf c (mocks tr)) := fun h c => by
    have := h c; rw [mocks_append, actsOf_append] at this; exact this.left
  have keep : ∀ {tr tb : List NEv}, NotSet sv clock (tr ++ tb) g t p → NotSet sv clock tr g t p := fun h k i m o n0 hc => h k i m o n0 (hc.more _)
  induction hy generalizing n with
  | first ho hp =>
    refine ⟨hp, Int.not_lt.1 fun hneg => ?_⟩
    obtain ⟨na, h1, _⟩ := h.split
    obtain ⟨hm, ha, hb, hg, hr, hf, hd, ht, hname, hp, hi, ho⟩ := ho
    obtain ⟨u, v, e1, _, e3⟩ := C110_offset_read h1 (left hs _) hm ha hb hr hf hd
    obtain ⟨_, e3⟩ := e3 _ ht _ hp
    rw [hname, hi, hg, ho] at e3
    obtain ⟨o', _, k, i, m', n0, e4, e5⟩ := e3 hneg
    exact absurd e5 (keep hn _ _ _ _ _ (by rw [e1]; exact e4.more v))
  | @next ta tb tc td c i d j start ps qs _ hc hlate ho hmax hp ih =>
    obtain ⟨n3, h3, r3⟩ := h.split
    obtain ⟨n2, h2, r2⟩ := h3.split
    obtain ⟨n1, h1, r1⟩ := h2.split
    have kl := (C46_kept ((r1.append r2).append r3).sys).1
    have room1 : ∀ t p, ∀ x ∈ (n1.sys.view 0).log t p, wireSize x < 2 ^ 31 := fun t p x hx => hroom t p x (by rw [kl]; exact List.mem_append_left _ hx)
    have len1 : first.toInt + ((n1.sys.view 0).log t p).length < 2 ^ 63 := by
      have := congrArg List.length (kl t p)
      rw [List.length_append] at this
      omega
    obtain ⟨i1, i2⟩ := ih h1 room1 (left (left (left hs))) len1 (keep (keep (keep hn)))
    have hnext := (C109 h1 room1 i1 (fun x _ => left (left (left hs)) _) i2 len1).2
    have := C113_exact h2 r2 (left (left hs) _) (left hs _) hc (keep hn) hlate ho hmax (by omega)
    subst this
    refine ⟨Polled.join ?_ hp, i2⟩
    rw [List.append_assoc, List.append_assoc]
    exact i1.more_events _

/-- **C113**: the messages that members have received who take turns, put one after the other, are the records of the partition from the group's first offset on: in order, none missing, none
twice, unaltered, and labelled with their offsets. -/
theorem C113 {sv : Server} {clock : Int} {g t : Bytes} {p : I32} {first : I64} {tr : List NEv} {ps : List Poll} (hy : Relay g t p first tr ps) {n : Net}
    (h : Net.Run (Net.new sv clock) tr n) (hroom : ∀ t p, ∀ x ∈ (n.sys.view 0).log t p, wireSize x < 2 ^ 31) (hs : ∀ c, SmallReplies sv (actsOf c (mocks tr)))
    (hlen : first.toInt + ((n.sys.view 0).log t p).length < 2 ^ 63) (hn : NotSet sv clock tr g t p) :
    Labelled first.toInt (slice ((n.sys.view 0).log t p) first.toInt (pollMessages ps).length) (pollMessages ps) ∧
      (nextOffset first (pollMessages ps)).toInt = first.toInt + (pollMessages ps).length := by
  obtain ⟨h1, h2⟩ := hy.polled h hroom hs hlen hn
  exact C109 h hroom h1 (fun x _ => hs _) h2 hlen

end KM.Props
