import Verif.Props.NoneLost
/-
Property C133: a consumer that begins at the end of the log receives what is posted from then on.
-/
namespace KM.Props
open KM KM.Spec

variable {sv : Server} {clock : Int} {ns : Nat → Net} {es : Nat → NEv}

/-- Client `d` has asked, with its request number `j`, for the end of the log of the partition, and has read `o` in the response. -/
inductive EndRead (tr : List NEv) (d j : Nat) (t : Bytes) (p : I32) (o : I64) : Prop where
  | mk {msg r b : Bytes} {q : ListOffsetsRequest} {corr : I32} {client : Option Bytes} {x : ListOffsetsResponse} {a c : Nat} {qt : ListOffsetsTopic} {qp : ListOffsetsPartition}
      {rt : ListOffsetsRespTopic} {rp : ListOffsetsRespPartition} (hm : (frames (asked d tr))[j]? = some msg) (ha : Accepted (.listOffsets q) corr client msg)
      (hb : FitsBuffer (.listOffsets q) corr client) (hr : (frames (got d tr))[j]? = some r) (hf : Framed b [r]) (hd : Client.response Client.listOffsets b = some ((corr, x), []))
      (h1 : q.topics[a]? = some qt) (h2 : qt.partitions[c]? = some qp) (h3 : x.topics[a]? = some rt) (h4 : rt.partitions[c]? = some rp) (hn : qt.name = t) (hp : qp.partitionIndex = p)
      (ht : qp.timestamp.toInt = -1) (hz : rp.errorCode = 0) (ho : rp.offset = o)

/-- What is read as the end is the length of the log at some time between the request and the response. -/
theorem EndRead.between {N m : Nat} (h : Listed sv clock ns es N) (hm : m ≤ N) {d j : Nat} {t : Bytes} {p : I32} {o : I64} (he : EndRead (upTo es N) d j t p o)
    (hsm : SmallReplies sv (actsOf d (mocks (upTo es N)))) (hlate : (frames (asked d (upTo es m))).length ≤ j) :
    ∃ n, o = BitVec.ofNat 64 n ∧ (((ns m).sys.view 0).log t p).length ≤ n ∧ n ≤ (((ns N).sys.view 0).log t p).length := by
  obtain ⟨hmsg, ha, hb, hre, hf, hd, e1, e2, e3, e4, rfl, rfl, hT, hz, rfl⟩ := he
  obtain ⟨tail, ht⟩ := upTo_le (es := es) hm
  have hrun := h.run
  rw [ht] at hrun hsm hre hmsg
  obtain ⟨nm, r1, r2⟩ := hrun.split
  obtain ⟨u1, m2, u2, payload, u3, n1, n2, req, corr', client', f1, f2, f3, f4, f5, f6, f7, f8, f9, _⟩ := C106_after r1 r2 d hsm hlate hre
  cases same_message (a := upTo es m ++ u1) (b := [.mock (.conn d (.reqBegin m2) ())] ++ ((u2 ++ [.mock (.conn d (.write payload) true)]) ++ u3)) (by
    rw [show upTo es m ++ u1 ++ ([.mock (.conn d (.reqBegin m2) ())] ++ ((u2 ++ [.mock (.conn d (.write payload) true)]) ++ u3)) = upTo es m ++ tail by rw [f1]; simp]
    exact hmsg) f5
  obtain ⟨rfl, rfl, _⟩ := C103_unambiguous (e := []) (e' := []) ha hb f6 f7 rfl
  obtain ⟨x, x1, x2⟩ := C59_list_offsets f8
  cases framed_unique hf f9
  rw [hd] at x1; cases x1
  obtain ⟨_, y1⟩ := forall₂_both x2 e1 e3
  obtain ⟨_, y2⟩ := forall₂_both y1 e2 e4
  rcases y2 with ⟨y2, _⟩ | ⟨_, _, n, z1, z2, z3, _, _⟩
  · rw [hz] at y2; cases y2
  have b1 := (C46_kept (h.less hm).run.sys).1
  have b2 := (C46_kept (r1.append f2).sys).1
  have b3 := (C46_kept f4.sys).1
  refine ⟨n, z3 hT, Nat.le_trans ?_ z1, Nat.le_trans z2 ?_⟩
  · rw [b1, b2, mocks_append, effectsOf_append, posts_append]
    simp
  · rw [b3]
    simp

/-- **C133**: a consumer has asked for the end of the log, with a request that was not complete after `m0` events, and had received the response after `m1`. It has polled from there; the request
of its last poll was not complete after `m` events. Then its messages come from distinct calls of SimplePost and ExtendedPost for the partition, one from each: from none that had returned by `m0`,
and from all that were made from `m1` on and had returned by `m`. If a call had returned before another one was made, its message comes first. -/
theorem C133 {N m m0 m1 : Nat} (h : Listed sv clock ns es N) (hm : m ≤ N) (hm0 : m0 ≤ m1) (hm1 : m1 ≤ N) (hroom : ∀ t p, ∀ x ∈ ((ns N).sys.view 0).log t p, wireSize x < 2 ^ 31)
    {d j : Nat} {t : Bytes} {p : I32} {o : I64} (he : EndRead (upTo es m1) d j t p o) (hlate0 : (frames (asked d (upTo es m0))).length ≤ j) {ps : List Poll} {x : Poll}
    (hp : Polled (upTo es N) t p o (ps ++ [x])) (hs : ∀ c, SmallReplies sv (actsOf c (mocks (upTo es N)))) (hlen : (((ns N).sys.view 0).log t p).length < 2 ^ 62)
    (hlate : (frames (asked x.conn (upTo es m))).length ≤ x.idx) :
    ∃ ks : List Nat, ks.Nodup ∧ List.Forall₂ (MessageOf ns es N t p) ks (pollMessages (ps ++ [x])) ∧
      (∀ k i call, PostAt ns es t p k i call → ReturnedBy ns k i m0 → k ∉ ks) ∧
      (∀ k i call, PostAt ns es t p k i call → m1 ≤ k → ReturnedBy ns k i m → k ∈ ks) ∧
      ∀ k k' i call (j' : Nat), PostAt ns es t p k i call → ReturnedBy ns k i k' → k ∈ ks → ks[j']? = some k' → ∃ j, j < j' ∧ ks[j]? = some k := by
  have small1 : SmallReplies sv (actsOf d (mocks (upTo es m1))) := by
    obtain ⟨l, hl⟩ := upTo_le (es := es) hm1
    have := hs d
    rw [hl, mocks_append, actsOf_append] at this
    exact this.left
  obtain ⟨n, rfl, n1, n2⟩ := he.between (h.less hm1) hm0 small1 hlate0
  have keep1 : (((ns m1).sys.view 0).log t p).length ≤ (((ns N).sys.view 0).log t p).length := by
    obtain ⟨l, hl⟩ := upTo_le (es := es) hm1
    rw [(C46_kept (h.less hm1).run.sys).1 t p, (C46_kept h.run.sys).1 t p, hl, mocks_append, effectsOf_append, posts_append]
    simp
  have hn : (BitVec.ofNat 64 n).toInt = n := by
    rw [BitVec.toInt_eq_toNat_of_lt (by rw [BitVec.toNat_ofNat]; omega), BitVec.toNat_ofNat]
    omega
  obtain ⟨ks, k1, k2, k3⟩ := C129_records h t p
  obtain ⟨L, hnext⟩ := C109 h.run hroom hp (fun _ _ => hs _) (by omega) (by omega)
  have reach := poll_reaches h hm hroom hp (fun _ _ => hs _) (by omega) (by omega) hlate
  generalize hM : pollMessages (ps ++ [x]) = ms at *
  rw [hnext, hn] at reach
  have hks := k2.length_eq
  have hfit : n + ms.length ≤ ks.length := by
    have := L.1
    unfold slice at this
    rw [hn, Int.toNat_natCast, List.length_take, List.length_drop] at this
    omega
  have at_ : ∀ i, i < ms.length → ((ks.drop n).take ms.length)[i]? = ks[n + i]? := fun i hi => by rw [List.getElem?_take_of_lt hi, List.getElem?_drop]
  have cut : ((ks.drop n).take ms.length).length = ms.length := by simp; omega
  have place : ∀ {k i : Nat}, ks[i]? = some k → n ≤ i → i < n + ms.length → k ∈ (ks.drop n).take ms.length := fun {k i} hk h1 h2 =>
    List.mem_of_getElem? (i := i - n) (by rw [at_ _ (by omega), show n + (i - n) = i by omega]; exact hk)
  have same : ∀ {k i i' : Nat}, ks[i]? = some k → ks[i']? = some k → i = i' := fun {k i i'} a b => by
    obtain ⟨a1, a2⟩ := List.getElem?_eq_some_iff.1 a
    obtain ⟨b1, b2⟩ := List.getElem?_eq_some_iff.1 b
    exact (List.Nodup.getElem_inj_iff k1).1 (a2.trans b2.symm)
  have back : ∀ {k l : Nat}, k ∈ ks.take l → ∃ i, i < l ∧ ks[i]? = some k := fun {k l} hk => by
    obtain ⟨i, hi⟩ := List.getElem?_of_mem hk
    have := (List.getElem?_eq_some_iff.1 hi).1
    rw [List.length_take] at this
    rw [List.getElem?_take_of_lt (by omega)] at hi
    exact ⟨i, by omega, hi⟩
  have inside : ∀ {k : Nat}, k ∈ (ks.drop n).take ms.length → ∃ i, n ≤ i ∧ i < n + ms.length ∧ ks[i]? = some k ∧ ((ks.drop n).take ms.length)[i - n]? = some k := fun {k} hk => by
    obtain ⟨i, hi⟩ := List.getElem?_of_mem hk
    have hlt := (List.getElem?_eq_some_iff.1 hi).1
    rw [cut] at hlt
    have hi' := hi
    rw [at_ _ hlt] at hi
    exact ⟨n + i, by omega, by omega, hi, by rw [show n + i - n = i by omega]; exact hi'⟩
  refine ⟨(ks.drop n).take ms.length, ((List.take_sublist _ _).trans (List.drop_sublist _ _)).nodup k1, ?_, ?_, ?_, ?_⟩
  · refine forall₂_of_getElem? cut ?_
    intro i k y hk hy
    have hi : i < ms.length := (List.getElem?_eq_some_iff.1 hy).1
    rw [at_ i hi] at hk
    have hlt : n + i < (((ns N).sys.view 0).log t p).length := by omega
    obtain ⟨g1, c, call, g2, g3⟩ := forall2_at k2 hk (List.getElem?_eq_getElem hlt)
    obtain ⟨_, l2, l3, l4, _⟩ := L.2 i _ y (by
      unfold slice
      rw [hn, Int.toNat_natCast, List.getElem?_take_of_lt hi, List.getElem?_drop]
      exact List.getElem?_eq_getElem hlt) hy
    exact ⟨g1, c, call, _, g2, g3, l3, l4, l2⟩
  · intro k i call hpa hret hk
    obtain ⟨a, a1, a2⟩ := back ((k3 m0 (by omega)).1 k i call hpa hret)
    obtain ⟨b, b1, _, b3, _⟩ := inside hk
    have := same a2 b3
    omega
  · intro k i call hpa hk hret
    obtain ⟨a, a1, a2⟩ := back ((k3 m hm).1 k i call hpa hret)
    refine place a2 (Nat.not_lt.1 fun hlt => ?_) (by omega)
    have := (k3 m1 hm1).2 k (List.mem_of_getElem? (i := a) (by rw [List.getElem?_take_of_lt (by omega)]; exact a2))
    omega
  · intro k k' i call j' hpa hret hk hj'
    have hlt' := (List.getElem?_eq_some_iff.1 hj').1
    rw [cut] at hlt'
    rw [at_ _ hlt'] at hj'
    have hltN : n + j' < (((ns N).sys.view 0).log t p).length := by omega
    have hN : k' ≤ N := Nat.le_of_lt (forall2_at k2 hj' (List.getElem?_eq_getElem hltN)).1
    obtain ⟨o1, o2⟩ := k3 k' hN
    obtain ⟨a, a1, a2⟩ := back (o1 k i call hpa hret)
    obtain ⟨b, b1, b2, b3, b4⟩ := inside hk
    cases same a2 b3
    have : ¬ n + j' < (((ns k').sys.view 0).log t p).length := fun hb => by
      have := o2 k' (List.mem_of_getElem? (i := n + j') (by rw [List.getElem?_take_of_lt hb]; exact hj'))
      omega
    exact ⟨a - n, by omega, b4⟩

end KM.Props
