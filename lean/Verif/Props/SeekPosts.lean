import Verif.Props.Tail
/-
Property C135: a consumer that begins at the offset of a time receives what was posted at that time or later.
-/
namespace KM.Props
open KM KM.Spec

variable {sv : Server} {clock : Int} {ns : Nat → Net} {es : Nat → NEv}

/-- Client `d` has asked, with its request number `j`, for the offset of the time `T` in the partition, and has read `o` in the response. -/
inductive TimeRead (tr : List NEv) (d j : Nat) (t : Bytes) (p : I32) (T : Int) (o : I64) : Prop where
  | mk {msg r b : Bytes} {q : ListOffsetsRequest} {corr : I32} {client : Option Bytes} {x : ListOffsetsResponse} {a c : Nat} {qt : ListOffsetsTopic} {qp : ListOffsetsPartition}
      {rt : ListOffsetsRespTopic} {rp : ListOffsetsRespPartition} (hm : (frames (asked d tr))[j]? = some msg) (ha : Accepted (.listOffsets q) corr client msg)
      (hb : FitsBuffer (.listOffsets q) corr client) (hr : (frames (got d tr))[j]? = some r) (hf : Framed b [r]) (hd : Client.response Client.listOffsets b = some ((corr, x), []))
      (h1 : q.topics[a]? = some qt) (h2 : qt.partitions[c]? = some qp) (h3 : x.topics[a]? = some rt) (h4 : rt.partitions[c]? = some rp) (hn : qt.name = t) (hp : qp.partitionIndex = p)
      (ht : qp.timestamp.toInt = T) (hz : rp.errorCode = 0) (ho : rp.offset = o)

/-- What is read is the offset of the time in the log as it was at some time between the request and the response. -/
theorem TimeRead.between {N m : Nat} (h : Listed sv clock ns es N) (hm : m ≤ N) {d j : Nat} {t : Bytes} {p : I32} {T : Int} {o : I64} (he : TimeRead (upTo es N) d j t p T o) (h1 : T ≠ -1)
    (h2 : T ≠ -2) (hsm : SmallReplies sv (actsOf d (mocks (upTo es N)))) (hlate : (frames (asked d (upTo es m))).length ≤ j) :
    ∃ n k, o = BitVec.ofNat 64 k ∧ (((ns m).sys.view 0).log t p).length ≤ n ∧ n ≤ (((ns N).sys.view 0).log t p).length ∧ TimeOffset ((((ns N).sys.view 0).log t p).take n) T k := by
  obtain ⟨hmsg, ha, hb, hre, hf, hd, e1, e2, e3, e4, rfl, rfl, rfl, hz, rfl⟩ := he
  obtain ⟨tail, ht⟩ := upTo_le (es := es) hm
  have hrun := h.run
  rw [ht] at hrun hsm hre hmsg
  obtain ⟨nm, r1, r2⟩ := hrun.split
  obtain ⟨u1, m2, u2, payload, u3, n1, n2, req, corr', client', f1, f2, f3, f4, f5, f6, f7, f8, f9, _⟩ := C106_after r1 r2 d hsm hlate hre
  cases same_message (a := upTo es m ++ u1) (b := [.mock (.conn d (.reqBegin m2) ())] ++ ((u2 ++ [.mock (.conn d (.write payload) true)]) ++ u3)) (by
    rw [show upTo es m ++ u1 ++ ([.mock (.conn d (.reqBegin m2) ())] ++ ((u2 ++ [.mock (.conn d (.write payload) true)]) ++ u3)) = upTo es m ++ tail by rw [f1]; simp]
    exact hmsg) f5
  obtain ⟨rfl, rfl, _⟩ := C103_unambiguous (e := []) (e' := []) ha hb f6 f7 rfl
  obtain ⟨x, x1, x2⟩ := C59_list_offsets f8
  cases framed_unique hf f9
  rw [hd] at x1; cases x1
  obtain ⟨_, y1⟩ := forall₂_both x2 e1 e3
  obtain ⟨_, y2⟩ := forall₂_both y1 e2 e4
  rcases y2 with ⟨y2, _⟩ | ⟨_, _, n, z1, z2, _, _, z5⟩
  · rw [hz] at y2; cases y2
  obtain ⟨k, k1, k2⟩ := z5 h1 h2
  have b1 := (C46_kept (h.less hm).run.sys).1
  have b2 := (C46_kept (r1.append f2).sys).1
  have b3 := (C46_kept f4.sys).1
  refine ⟨n, k, k1, Nat.le_trans ?_ z1, Nat.le_trans z2 ?_, ?_⟩
  · rw [b1, b2, mocks_append, effectsOf_append, posts_append]
    simp
  · rw [b3]
    simp
  · rw [b3, List.take_append_of_le_length z2]
    exact k2

theorem PostCall.call_inj {a b : PostCall} (h : a.call = b.call) : a = b := by
  obtain ⟨t, p, k, v, e⟩ := a
  obtain ⟨t', p', k', v', e'⟩ := b
  unfold PostCall.call at h
  rcases e with _ | ⟨_, _⟩ <;> rcases e' with _ | ⟨_, _⟩ <;> cases h <;> rfl

/-- A call has stamped its record with a time before `T`, if it has posted one. -/
def StampedBefore (ns : Nat → Net) (N : Nat) (T : Int) (k : Nat) (call : PostCall) : Prop :=
  ∃ r : Record, call.Matches ((ns k).sys.view 0).clock ((ns N).sys.view 0).clock r ∧ r.timestamp.toInt < T

/-- **C135**, the part that holds: a consumer has asked for the offset of the time `T`, with a request that was not complete after `m0` events, and had received the response after `m1`. It has polled
from there; the request of its last poll was not complete after `m` events. Then its messages come from distinct calls of SimplePost and ExtendedPost for the partition, one from each: from all that
had returned by `m`, except some for which there is a call, the same or one that had not returned when it was made, that stamped its record with a time before `T`; if the timestamps of the partition
are in order, except some that themselves stamped their records with a time before `T`. A message of a time before `T` is from a call that had not returned by `m0`. Missing: calls with `T` or later
that are followed, in the log, by one with a time before `T`; for these it is false (`C135_false`). -/
theorem C135_partial {N m m0 m1 : Nat} (h : Listed sv clock ns es N) (hm : m ≤ N) (hm0 : m0 ≤ m1) (hm1 : m1 ≤ N) (hroom : ∀ t p, ∀ x ∈ ((ns N).sys.view 0).log t p, wireSize x < 2 ^ 31)
    {d j : Nat} {t : Bytes} {p : I32} {T : Int} {o : I64} (he : TimeRead (upTo es m1) d j t p T o) (hT1 : T ≠ -1) (hT2 : T ≠ -2) (hlate0 : (frames (asked d (upTo es m0))).length ≤ j)
    {ps : List Poll} {x : Poll} (hp : Polled (upTo es N) t p o (ps ++ [x])) (hs : ∀ c, SmallReplies sv (actsOf c (mocks (upTo es N))))
    (hlen : (((ns N).sys.view 0).log t p).length < 2 ^ 62) (hlate : (frames (asked x.conn (upTo es m))).length ≤ x.idx) :
    ∃ ks : List Nat, ks.Nodup ∧ List.Forall₂ (MessageOf ns es N t p) ks (pollMessages (ps ++ [x])) ∧
      (∀ k i call, PostAt ns es t p k i call → ReturnedBy ns k i m → k ∈ ks ∨
        (∃ k' i' call', PostAt ns es t p k' i' call' ∧ ¬ ReturnedBy ns k' i' k ∧ StampedBefore ns N T k' call') ∧
        ((((ns N).sys.view 0).log t p).Pairwise (fun a b => a.timestamp.toInt ≤ b.timestamp.toInt) → StampedBefore ns N T k call)) ∧
      ∀ (j' k' : Nat) (y : MessageV1) i call, ks[j']? = some k' → (pollMessages (ps ++ [x]))[j']? = some y → y.timestamp.toInt < T → PostAt ns es t p k' i call → ¬ ReturnedBy ns k' i m0 := by
  have small1 : SmallReplies sv (actsOf d (mocks (upTo es m1))) := by
    obtain ⟨l, hl⟩ := upTo_le (es := es) hm1
    have := hs d
    rw [hl, mocks_append, actsOf_append] at this
    exact this.left
  obtain ⟨len, n, rfl, n1, n2, n3⟩ := he.between (h.less hm1) hm0 hT1 hT2 small1 hlate0
  have keep1 : ∃ l, ((ns N).sys.view 0).log t p = ((ns m1).sys.view 0).log t p ++ l := by
    obtain ⟨l, hl⟩ := upTo_le (es := es) hm1
    rw [(C46_kept (h.less hm1).run.sys).1 t p, (C46_kept h.run.sys).1 t p, hl, mocks_append, effectsOf_append, posts_append]
    exact ⟨_, (List.append_assoc ..).symm⟩
  obtain ⟨more, hmore⟩ := keep1
  have hlen2 : len ≤ (((ns N).sys.view 0).log t p).length := by rw [hmore, List.length_append]; omega
  rw [← List.take_append_of_le_length (l₂ := more) n2, ← hmore] at n3
  obtain ⟨t1, t2, t3⟩ := n3
  rw [List.length_take, Nat.min_eq_left hlen2] at t1
  have hn : (BitVec.ofNat 64 n).toInt = n := by
    rw [BitVec.toInt_eq_toNat_of_lt (by rw [BitVec.toNat_ofNat]; omega), BitVec.toNat_ofNat]
    omega
  obtain ⟨ks, k1, k2, k3⟩ := C129_records h t p
  obtain ⟨L, hnext⟩ := C109 h.run hroom hp (fun _ _ => hs _) (by omega) (by omega)
  have reach := poll_reaches h hm hroom hp (fun _ _ => hs _) (by omega) (by omega) hlate
  generalize hM : pollMessages (ps ++ [x]) = ms at *
  rw [hnext, hn] at reach
  have hks := k2.length_eq
  have hfit : n + ms.length ≤ ks.length := by
    have := L.1
    unfold slice at this
    rw [hn, Int.toNat_natCast, List.length_take, List.length_drop] at this
    omega
  have at_ : ∀ i, i < ms.length → ((ks.drop n).take ms.length)[i]? = ks[n + i]? := fun i hi => by rw [List.getElem?_take_of_lt hi, List.getElem?_drop]
  have cut : ((ks.drop n).take ms.length).length = ms.length := by simp; omega
  have back : ∀ {k l : Nat}, k ∈ ks.take l → ∃ i, i < l ∧ ks[i]? = some k := fun {k l} hk => by
    obtain ⟨i, hi⟩ := List.getElem?_of_mem hk
    have := (List.getElem?_eq_some_iff.1 hi).1
    rw [List.length_take] at this
    rw [List.getElem?_take_of_lt (by omega)] at hi
    exact ⟨i, by omega, hi⟩
  have label : ∀ {i : Nat} {y : MessageV1}, ms[i]? = some y → ∃ r, (((ns N).sys.view 0).log t p)[n + i]? = some r ∧ y.key = r.key ∧ y.value = r.value ∧ y.timestamp = r.timestamp := fun {i y} hy => by
    have hi : i < ms.length := (List.getElem?_eq_some_iff.1 hy).1
    have hlt : n + i < (((ns N).sys.view 0).log t p).length := by omega
    obtain ⟨_, l2, l3, l4, _⟩ := L.2 i _ y (by
      unfold slice
      rw [hn, Int.toNat_natCast, List.getElem?_take_of_lt hi, List.getElem?_drop]
      exact List.getElem?_eq_getElem hlt) hy
    exact ⟨_, List.getElem?_eq_getElem hlt, l3, l4, l2⟩
  refine ⟨(ks.drop n).take ms.length, ((List.take_sublist _ _).trans (List.drop_sublist _ _)).nodup k1, ?_, ?_, ?_⟩
  · refine forall₂_of_getElem? cut ?_
    intro i k y hk hy
    rw [at_ i (List.getElem?_eq_some_iff.1 hy).1] at hk
    obtain ⟨r, r1, r2⟩ := label hy
    obtain ⟨g1, c, call, g2, g3⟩ := forall2_at k2 hk r1
    exact ⟨g1, c, call, r, g2, g3, r2⟩
  · intro k i call hpa hret
    obtain ⟨a, a1, a2⟩ := back ((k3 m hm).1 k i call hpa hret)
    by_cases hna : n ≤ a
    · exact .inl (List.mem_of_getElem? (i := a - n) (by rw [at_ _ (by omega), show n + (a - n) = a by omega]; exact a2))
    · have ha := (List.getElem?_eq_some_iff.1 a2).1
      have hb : n - 1 < (((ns N).sys.view 0).log t p).length := by omega
      have ha' : a < (((ns N).sys.view 0).log t p).length := by omega
      obtain ⟨_, i', call', g2, g3⟩ := forall2_at k2 a2 (List.getElem?_eq_getElem ha')
      have same := hpa.event.symm.trans g2.event
      obtain ⟨rfl, rfl⟩ : i = i' ∧ call = call' := by
        injection same with same
        injection same with same
        injection same with e1 e2
        exact ⟨e1, PostCall.call_inj e2⟩
      have last : (((ns N).sys.view 0).log t p)[n - 1].timestamp.toInt < T := t3 (n - 1) _ (by omega) (by rw [List.getElem?_take_of_lt (by omega)]; exact List.getElem?_eq_getElem hb)
      refine .inr ⟨?_, fun hin => ⟨_, g3, Int.lt_of_le_of_lt (if e : a = n - 1 then by subst e; exact Int.le_refl _ else List.pairwise_iff_getElem.1 hin a (n - 1) ha' hb (by omega)) last⟩⟩
      have hkb : n - 1 < ks.length := by omega
      obtain ⟨_, i2, call2, q2, q3⟩ := forall2_at k2 (List.getElem?_eq_getElem hkb) (List.getElem?_eq_getElem hb)
      refine ⟨_, i2, call2, q2, fun hret2 => ?_, _, q3, last⟩
      have hkN : k ≤ N := Nat.le_of_lt (forall2_at k2 a2 (List.getElem?_eq_getElem ha')).1
      obtain ⟨o1, o2⟩ := k3 k hkN
      obtain ⟨b, b1, b2⟩ := back (o1 _ i2 call2 q2 hret2)
      have e : b = n - 1 := by
        obtain ⟨c1, c2⟩ := List.getElem?_eq_some_iff.1 b2
        exact (List.Nodup.getElem_inj_iff k1).1 c2
      have := o2 k (List.mem_of_getElem? (i := a) (by rw [List.getElem?_take_of_lt (by omega)]; exact a2))
      omega
  · intro j' k' y i call hk hy hlow hpa hret
    have hj := (List.getElem?_eq_some_iff.1 hy).1
    rw [at_ _ hj] at hk
    obtain ⟨r, r1, _, _, r4⟩ := label hy
    obtain ⟨a, a1, a2⟩ := back ((k3 m0 (by omega)).1 k' i call hpa hret)
    have e : a = n + j' := by
      obtain ⟨b1, b2⟩ := List.getElem?_eq_some_iff.1 a2
      obtain ⟨c1, c2⟩ := List.getElem?_eq_some_iff.1 hk
      exact (List.Nodup.getElem_inj_iff k1).1 (b2.trans c2.symm)
    have := t2 (n + j') r (by omega) (by rw [List.getElem?_take_of_lt (by omega)]; exact r1)
    rw [r4] at hlow
    omega

/-- **C135**, the part that holds, for the calls: SimplePost called at the time `T` or later, and ExtendedPost with a timestamp of `T` or later, do not stamp their records with a time before `T`. -/
theorem C135_since_partial {N k : Nat} {T : Int} {call : PostCall} (hT : -2 ^ 63 ≤ T) (hend : ((ns N).sys.view 0).clock / 1000000 < 2 ^ 63)
    (hcall : match call.extended with
      | none => T ≤ ((ns k).sys.view 0).clock / 1000000
      | some (_, ts) => T ≤ ts / 1000000 ∧ ts / 1000000 < 2 ^ 63) : ¬ StampedBefore ns N T k call := by
  rintro ⟨r, ⟨_, _, _, hm⟩, hlt⟩
  have fit : ∀ z : Int, T ≤ z → z < 2 ^ 63 → r.timestamp = BitVec.ofInt 64 z → False := fun z h1 h2 e => by
    rw [e, BitVec.toInt_ofInt, Int.bmod_def] at hlt
    omega
  split at hm
  · next he =>
    rw [he] at hcall
    obtain ⟨_, z, z1, z2, z3⟩ := hm
    exact fit _ (Int.le_trans hcall (Int.ediv_le_ediv (by decide) z1)) (Int.lt_of_le_of_lt (Int.ediv_le_ediv (by decide) z2) hend) z3
  · next he =>
    rw [he] at hcall
    exact fit _ hcall.1 hcall.2 hm.2

end KM.Props
