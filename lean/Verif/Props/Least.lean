import Verif.Props.Origin

/-!
# A consumer group receives every record at least once, as its members see it

C109 is about one consumer that goes on from where it was, and C71 about a group whose members take turns. Here any number of members of a consumer group work at the same time, each at
its own end of its own connections, and each may stop at any point, with requests under way. A member begins at the offset that it reads in an OffsetFetch response, fetches, and commits.
The only thing asked of the group is that it commits no offset that no member has got to. Then no record is passed over: all records before the place where a member is have been received
by the members of the group.
-/

namespace KM.Props

open KM KM.Spec

theorem frame_more {b b' m : Bytes} {i : Nat} (h : (frames b)[i]? = some m) : (frames (b ++ b'))[i]? = some m := by
  obtain ⟨y, hy⟩ := frames_append b b'
  rw [← hy, List.getElem?_append_left (List.getElem?_eq_some_iff.1 h).1, h]

theorem Poll.Seen.more {tr : List NEv} {t : Bytes} {p : I32} {o : I64} {x : Poll} (h : x.Seen tr t p o) (z : List NEv) : x.Seen (tr ++ z) t p o := by
  obtain ⟨hm, ha, hb, hone, hq, hr, hl, hf, hd, hy, hms⟩ := h
  exact ⟨by rw [asked_append]; exact frame_more hm, ha, hb, hone, hq, by rw [got_append]; exact frame_more hr, hl, hf, hd, hy, hms⟩

theorem Polled.more_events {tr : List NEv} {t : Bytes} {p : I32} {first : I64} {ps : List Poll} (h : Polled tr t p first ps) (z : List NEv) : Polled (tr ++ z) t p first ps := by
  induction h with
  | none => exact .none
  | more _ hx ih => exact .more ih (hx.more z)

/-- A session of a member of group `g`: it has asked for the committed offset of the partition, has read `start` in the response, and has made these fetches from there, each from the offset
after the last message it had received. It may have ended at any point. -/
inductive GroupSession (tr : List NEv) (g t : Bytes) (p : I32) (start : I64) (ps : List Poll) : Prop where
  | mk {c i : Nat} {msg r b : Bytes} {q : OffsetFetchRequest} {corr : I32} {client : Option Bytes} {x : OffsetFetchResponse} {rt : OffsetFetchRespTopic} {rp : OffsetFetchRespPartition}
      (hm : (frames (asked c tr))[i]? = some msg) (ha : Accepted (.offsetFetch q) corr client msg) (hb : FitsBuffer (.offsetFetch q) corr client) (hg : q.groupId = g)
      (hr : (frames (got c tr))[i]? = some r) (hf : Framed b [r]) (hd : Client.response Client.offsetFetch b = some ((corr, x), []))
      (ht : rt ∈ x.topics) (hn : rt.name = t) (hp : rp ∈ rt.partitions) (hi : rp.partitionIndex = p) (ho : rp.committedOffset = start) (hps : Polled tr t p start ps)

theorem GroupSession.more {tr : List NEv} {g t : Bytes} {p : I32} {start : I64} {ps : List Poll} (h : GroupSession tr g t p start ps) (z : List NEv) : GroupSession (tr ++ z) g t p start ps := by
  obtain ⟨hm, ha, hb, hg, hr, hf, hd, ht, hn, hp, hi, ho, hps⟩ := h
  exact ⟨by rw [asked_append]; exact frame_more hm, ha, hb, hg, by rw [got_append]; exact frame_more hr, hf, hd, ht, hn, hp, hi, ho, hps.more_events z⟩

/-- A member of the group has received the record at offset `j`. -/
def MemberGot (tr : List NEv) (log : List Record) (g t : Bytes) (p : I32) (j : Nat) : Prop :=
  ∃ start ps m r, GroupSession tr g t p start ps ∧ m ∈ pollMessages ps ∧ m.offset = BitVec.ofNat 64 j ∧ log[j]? = some r ∧ m.key = r.key ∧ m.value = r.value ∧ m.timestamp = r.timestamp

theorem MemberGot.more {tr : List NEv} {log : List Record} {g t : Bytes} {p : I32} {j : Nat} (h : MemberGot tr log g t p j) (z : List NEv) (more : List Record) :
    MemberGot (tr ++ z) (log ++ more) g t p j := by
  obtain ⟨start, ps, m, r, h1, h2, h3, h4, h5⟩ := h
  exact ⟨start, ps, m, r, h1.more z, h2, h3, by rw [List.getElem?_append_left (List.getElem?_eq_some_iff.1 h4).1, h4], h5⟩

/-- The group commits an offset only when a member has got to it: whoever has sent it in an OffsetCommit request, some member had received the records up to there, from where it began. -/
def CommitsReceived (tr : List NEv) (g t : Bytes) (p : I32) : Prop :=
  ∀ u v, tr = u ++ v → ∀ c i o, CommitSent u c i t p g o → ∃ start ps, GroupSession u g t p start ps ∧ o.toInt ≤ (nextOffset start (pollMessages ps)).toInt

/-- No test calls SetConsumerGroupOffset for the group's partition. -/
def NotSet (sv : Server) (clock : Int) (tr : List NEv) (g t : Bytes) (p : I32) : Prop :=
  ∀ k i m o n0, Called sv clock tr k i (.setConsumerGroupOffset t m g o) n0 → BitVec.ofInt 32 m ≠ p

/-- **C111**: in a session of any member of the group, all records before the place where the member is have been received by members of the group, unaltered, whichever members have stopped and
whatever was under way when they did. -/
theorem C111 {sv : Server} {clock : Int} {g t : Bytes} {p : I32} {tr : List NEv} {n : Net} (h : Net.Run (Net.new sv clock) tr n)
    (hroom : ∀ t p, ∀ x ∈ (n.sys.view 0).log t p, wireSize x < 2 ^ 31) (hs : ∀ c, SmallReplies sv (actsOf c (mocks tr))) (hlen : ((n.sys.view 0).log t p).length < 2 ^ 62)
    (hc : CommitsReceived tr g t p) (hn : NotSet sv clock tr g t p) {start : I64} {ps : List Poll} (hse : GroupSession tr g t p start ps) :
    0 ≤ start.toInt ∧ (nextOffset start (pollMessages ps)).toInt ≤ ((n.sys.view 0).log t p).length ∧
      ∀ j : Nat, (j : Int) < (nextOffset start (pollMessages ps)).toInt → MemberGot tr ((n.sys.view 0).log t p) g t p j := by
  generalize hm : tr.length = m
  induction m using Nat.strongRecOn generalizing tr n start ps with
  | _ m ih =>
  have hse' := hse
  obtain ⟨hmsg, ha, hb, hg, hr, hf, hd, ht, hname, hp, hi, ho, hps⟩ := hse
  -- where it began
  have begin_ : 0 ≤ start.toInt ∧ start.toInt ≤ ((n.sys.view 0).log t p).length ∧ ∀ j : Nat, (j : Int) < start.toInt → MemberGot tr ((n.sys.view 0).log t p) g t p j := by
    obtain ⟨u, v, e1, e2, e3⟩ := C110_offset_read h (hs _) hmsg ha hb hr hf hd
    have e3 := e3 _ ht _ hp
    rw [hname, hi, hg, ho] at e3
    obtain ⟨e3, e5⟩ := e3
    have hpos : 0 ≤ start.toInt := by
      refine Int.not_lt.1 fun hneg => ?_
      obtain ⟨o', _, k, i, m', n0, e3, e4⟩ := e5 hneg
      exact absurd e4 (hn _ _ _ _ _ (by rw [e1]; exact e3.more v))
    rcases e3 with rfl | ⟨c, i, e3⟩ | ⟨k, i, m', n0, e3, e4⟩
    · exact ⟨by decide, by simp, fun j hj => by simp at hj; omega⟩
    · subst e1
      obtain ⟨nu, r1, r2⟩ := h.split
      have hk := (C46_kept r2.sys).1
      obtain ⟨start', ps', s1, s2⟩ := hc u v rfl c i start e3
      have hvl : u.length < m := by
        have := List.length_pos_of_ne_nil e2
        rw [← hm, List.length_append]; omega
      have hl := hk t p
      obtain ⟨i1, i2, i3⟩ := ih u.length hvl r1 (fun t p x hx => hroom t p x (by rw [hk]; exact List.mem_append_left _ hx))
        (fun c => by have := hs c; rw [mocks_append, actsOf_append] at this; exact this.left) (by rw [hl, List.length_append] at hlen; omega)
        (fun a b e => hc a (b ++ v) (by rw [e, List.append_assoc])) (fun k i m o n0 hcall => hn k i m o n0 (hcall.more v)) s1 rfl
      refine ⟨hpos, by rw [hl, List.length_append]; omega, fun j hj => ?_⟩
      rw [hl]; exact (i3 j (by omega)).more v _
    · exact absurd e4 (hn _ _ _ _ _ (by rw [e1]; exact e3.more v))
  obtain ⟨b1, b2, b3⟩ := begin_
  obtain ⟨⟨l1, l2⟩, l3⟩ := C109 h hroom hps (fun x _ => hs _) b1 (by omega)
  have hle : (pollMessages ps).length = 0 ∨ start.toInt + (pollMessages ps).length ≤ ((n.sys.view 0).log t p).length := by
    rw [slice, List.length_take, List.length_drop] at l1
    omega
  refine ⟨b1, by omega, fun j hj => ?_⟩
  by_cases hj' : (j : Int) < start.toInt
  · exact b3 j hj'
  · have hi : j - start.toInt.toNat < (pollMessages ps).length := by omega
    have hj2 : j < ((n.sys.view 0).log t p).length := by omega
    have hrec : (slice ((n.sys.view 0).log t p) start.toInt (pollMessages ps).length)[j - start.toInt.toNat]? = some ((n.sys.view 0).log t p)[j] := by
      rw [slice, List.getElem?_take_of_lt hi, List.getElem?_drop, show start.toInt.toNat + (j - start.toInt.toNat) = j by omega, List.getElem?_eq_getElem hj2]
    obtain ⟨m1, m2, m3, m4, _⟩ := l2 _ _ _ hrec (List.getElem?_eq_getElem hi)
    refine ⟨start, ps, _, _, hse', List.getElem_mem hi, ?_, List.getElem?_eq_getElem hj2, m3, m4, m2⟩
    rw [m1, show start.toInt + ((j - start.toInt.toNat : Nat) : Int) = (j : Int) by omega]
    exact BitVec.ofInt_natCast _ _

/-- **C111**, the committed offset: the members of the group have received all records before it, and it is not above the number of the records. -/
theorem C111_committed {sv : Server} {clock : Int} {g t : Bytes} {p : I32} {tr : List NEv} {n : Net} (h : Net.Run (Net.new sv clock) tr n)
    (hroom : ∀ t p, ∀ x ∈ (n.sys.view 0).log t p, wireSize x < 2 ^ 31) (hs : ∀ c, SmallReplies sv (actsOf c (mocks tr))) (hlen : ((n.sys.view 0).log t p).length < 2 ^ 62)
    (hc : CommitsReceived tr g t p) (hn : NotSet sv clock tr g t p) :
    0 ≤ ((n.sys.view 0).committed t p g).toInt ∧ ((n.sys.view 0).committed t p g).toInt ≤ ((n.sys.view 0).log t p).length ∧
      ∀ j : Nat, (j : Int) < ((n.sys.view 0).committed t p g).toInt → MemberGot tr ((n.sys.view 0).log t p) g t p j := by
  obtain ⟨h1, h2⟩ := C110_offsets h t p g
  have hpos : 0 ≤ ((n.sys.view 0).committed t p g).toInt := by
    refine Int.not_lt.1 fun hneg => ?_
    obtain ⟨o', _, k, i, m', n0, e3, e4⟩ := h2 hneg
    exact absurd e4 (hn _ _ _ _ _ e3)
  rcases h1 with h1 | ⟨c, i, h1⟩ | ⟨k, i, m', n0, e3, e4⟩
  · rw [h1]; exact ⟨by decide, by simp, fun j hj => by simp at hj; omega⟩
  · obtain ⟨start, ps, s1, s2⟩ := hc tr [] (by simp) c i _ h1
    obtain ⟨_, i2, i3⟩ := C111 h hroom hs hlen hc hn s1
    exact ⟨hpos, by omega, fun j hj => i3 j (by omega)⟩
  · exact absurd e4 (hn _ _ _ _ _ e3)

end KM.Props
