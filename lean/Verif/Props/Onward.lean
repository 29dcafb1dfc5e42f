import Verif.Props.Back
/-
Property C130: the committed offset of a group that clients read goes back only if a test sets it back.
-/
namespace KM.Props
open KM KM.Spec

/-- Every call that sets the offset of the group to less than `o` has returned when `ta` has happened (and the mock is in `na`). -/
def SetBackDone (sv : Server) (clock : Int) (ta : List NEv) (na : Net) (tr : List NEv) (t : Bytes) (p : I32) (g : Bytes) (o : I64) : Prop :=
  ∀ k i m o' n0, Called sv clock tr k i (.setConsumerGroupOffset t m g o') n0 → BitVec.ofInt 32 m = p → o.toInt ≤ o'.toInt ∨ k < ta.length ∧ na.sys.api i = .idle

/-- Then no offset is set to less than that later. -/
theorem later_resets {sv : Server} {clock : Int} {ta tb : List NEv} {na n : Net} (h1 : Net.Run (Net.new sv clock) ta na) (h2 : Net.Run na tb n) {t g : Bytes} {p : I32} {o : I64}
    (hs : SetBackDone sv clock ta na (ta ++ tb) t p g o) : ∀ o', .reset t p g o' ∈ effectsOf (mocks tb) → o.toInt ≤ o' := by
  intro o1 hx
  unfold effectsOf at hx
  obtain ⟨e, k1, k2⟩ := List.mem_filterMap.1 hx
  obtain ⟨a, b, k3⟩ := List.append_of_mem k1
  obtain ⟨u1, u2, rfl, _, _⟩ := mocks_split k3
  obtain ⟨n1, r1, r2⟩ := h2.split
  cases r2 with
  | cons hst r2 =>
  cases e with
  | conn c a r =>
    dsimp only at k2
    obtain ⟨i, t', p', g', o', rfl, _⟩ := conn_effect (h1.append r1) hst (by rw [k2]; nofun)
    cases k2
  | call i a r =>
    dsimp only at k2
    cases a with
    | setOffset t' p' g' o' =>
      cases k2
      cases hst with
      | mock hst hl =>
      cases hst with
      | call hp ha =>
      by_cases hi : na.sys.api i = .idle
      · obtain ⟨u, v, n0, c, q, l, g1, g2, g3, g4, g5⟩ := called_since r1 hi hp
        obtain ⟨m, rfl, hm⟩ := resets_call g4 g5
        rcases hs (ta.length + u.length) i m o' n0 (.mk (u := ta ++ u) (by rw [g1]; simp; rfl) (by simp) (h1.append g2) g3) hm with h7 | ⟨h7, _⟩
        · exact h7
        · omega
      · obtain ⟨u, v, n0, n1, c, q, es, g1, g2, g3, g4, g5, g6, g7⟩ := net_called (h1.append r1) hp
        obtain ⟨m, rfl, hm⟩ := resets_call g5 g6.own
        rcases hs u.length i m o' n0 (.mk (u := u) (by rw [← List.append_assoc, g1, List.append_assoc]; rfl) rfl g2 g3) hm with h7 | ⟨_, h7⟩
        · exact h7
        · exact absurd h7 hi
    | post => cases k2
    | commit => cases k2
    | _ => cases k2
  | _ => cases k2

/-- What is committed stays above a bound that no reset goes below. -/
theorem committedFrom_above {h : List Eff} {t : Bytes} {p : I32} {g : Bytes} {o c : Int} (hc : o ≤ c) (hn : ∀ o', .reset t p g o' ∈ h → o ≤ o') : o ≤ Spec.committedFrom c h t p g := by
  induction h generalizing c with
  | nil => exact hc
  | cons e h ih =>
    have ih := fun {c} hc => ih (c := c) hc fun o' hm => hn o' (List.mem_cons_of_mem _ hm)
    cases e with
    | post => exact ih hc
    | commit t' p' g' o' =>
      simp only [Spec.committedFrom]
      split
      · exact ih (by omega)
      · exact ih hc
    | reset t' p' g' o' =>
      simp only [Spec.committedFrom]
      split
      · next hq =>
        obtain ⟨rfl, rfl, rfl⟩ := hq
        exact ih (hn o' List.mem_cons_self)
      · exact ih hc

/-- The committed offset is at least `o`, and no reset below is to come: what is read later is at least `o`. -/
theorem read_above {sv : Server} {clock : Int} {ta tb : List NEv} {na nb n : Net} (h1 : Net.Run (Net.new sv clock) ta na) (h2 : Net.Run na tb n) {d j : Nat}
    (hs : SmallReplies sv (actsOf d (mocks (ta ++ tb)))) {u v : List NEv} (huv : tb = u ++ v) (hu : Net.Run na u nb) (hv : Net.Run nb v n) {t g : Bytes} {p : I32} {o : Int}
    (hn : ∀ o', .reset t p g o' ∈ effectsOf (mocks v) → o ≤ o')
    (hab : o ≤ ((nb.sys.view 0).committed t p g).toInt) (hex : (nb.sys.view 0).hasPartition t p) (hlate : (frames (asked d (ta ++ u))).length ≤ j)
    {msg r : Bytes} {q : OffsetFetchRequest} {corr : I32} {client : Option Bytes} (hm : (frames (asked d (ta ++ tb)))[j]? = some msg)
    (ha : Accepted (.offsetFetch q) corr client msg) (hb : FitsBuffer (.offsetFetch q) corr client) (hg : q.groupId = g) (hr : (frames (got d (ta ++ tb)))[j]? = some r) :
    ∃ b x, Framed b [r] ∧ Client.response Client.offsetFetch b = some ((corr, x), []) ∧
      ((∃ y ∈ q.topics, y.name = t ∧ p ∈ y.partitionIndexes) → ∃ y ∈ x.topics, y.name = t ∧ ∃ z ∈ y.partitions, z.partitionIndex = p) ∧
      ∀ y ∈ x.topics, y.name = t → ∀ z ∈ y.partitions, z.partitionIndex = p → o ≤ z.committedOffset.toInt := by
  subst huv
  rw [← List.append_assoc] at hm hr hs
  obtain ⟨v1, m2, v2, pl2, v3, n3, n4, req2, corr2, client2, f1, f2, f3, f4, f5, f6, f7, f8, f9, _⟩ := C106_after (h1.append hu) hv d hs hlate hr
  cases same_message (b := [.mock (.conn d (.reqBegin m2) ())] ++ ((v2 ++ [.mock (.conn d (.write pl2) true)]) ++ v3))
    (by rw [show ta ++ u ++ v1 ++ ([.mock (.conn d (.reqBegin m2) ())] ++ ((v2 ++ [.mock (.conn d (.write pl2) true)]) ++ v3)) = ta ++ u ++ v by rw [f1]; simp]; exact hm) f5
  obtain ⟨rfl, rfl, _⟩ := C103_unambiguous (e := []) (e' := []) ha hb f6 f7 rfl
  obtain ⟨_, kc, _, kp⟩ := C46_kept f2.sys
  obtain ⟨x, g3, _, g4, g5⟩ := C59_offset_fetch f8
  rw [f1, mocks_append, effectsOf_append, mocks_append (v2 ++ _), effectsOf_append] at hn
  refine ⟨_, x, f9, g3, ?_, ?_⟩
  · rintro ⟨y, hy, rfl, hyp⟩
    exact g4 y hy _ hyp (kp _ _ hex)
  · intro y hy hyn z hz hzp
    obtain ⟨_, _, _, k, hn'⟩ := g5 y hy z hz
    rw [hyn, hzp, hg] at hn'
    rw [hn']
    refine committedFrom_above ?_ fun o' ho' => hn o' (by simp [List.mem_of_mem_take ho'])
    rw [kc]
    exact committedFrom_above hab fun o' ho' => hn o' (by simp [ho'])

/-- **C130**, reading: a client has sent an OffsetFetch request of the group after `t0`, and has received the response, which says that the committed offset of the partition is `o`. When `t0` had
happened, all calls that set that offset to less than `o` had returned. Then every OffsetFetch request of the group that any client completes later is answered, if it asks for the partition,
with an entry for it, and with no smaller offset. -/
theorem C130_read {sv : Server} {clock : Int} {t0 ta tb : List NEv} {n0 na n : Net} (h0 : Net.Run (Net.new sv clock) t0 n0) (h1 : Net.Run n0 ta na) (h2 : Net.Run na tb n) {c d i j : Nat}
    (hs : SmallReplies sv (actsOf c (mocks (t0 ++ ta)))) (hs' : SmallReplies sv (actsOf d (mocks (t0 ++ (ta ++ tb))))) {t g : Bytes} {p : I32} {o : I64}
    (hc : OffsetRead (t0 ++ ta) c i t p g o) (hci : (frames (asked c t0)).length ≤ i) (hset : SetBackDone sv clock t0 n0 (t0 ++ (ta ++ tb)) t p g o)
    (hlate : (frames (asked d (t0 ++ ta))).length ≤ j) {msg r : Bytes} {q : OffsetFetchRequest} {corr : I32} {client : Option Bytes}
    (hm : (frames (asked d (t0 ++ (ta ++ tb))))[j]? = some msg) (ha : Accepted (.offsetFetch q) corr client msg) (hb : FitsBuffer (.offsetFetch q) corr client) (hg : q.groupId = g)
    (hr : (frames (got d (t0 ++ (ta ++ tb))))[j]? = some r) :
    ∃ b x, Framed b [r] ∧ Client.response Client.offsetFetch b = some ((corr, x), []) ∧
      ((∃ y ∈ q.topics, y.name = t ∧ p ∈ y.partitionIndexes) → ∃ y ∈ x.topics, y.name = t ∧ ∃ z ∈ y.partitions, z.partitionIndex = p) ∧
      ∀ y ∈ x.topics, y.name = t → ∀ z ∈ y.partitions, z.partitionIndex = p → o.toInt ≤ z.committedOffset.toInt := by
  have low := later_resets h0 (h1.append h2) hset
  rw [mocks_append, effectsOf_append] at low
  obtain ⟨hm1, ha1, hb1, hg1, hr1, hf1, hd1, ht1, hn1, hp1, hi1, ho1⟩ := hc
  obtain ⟨u1, m1, u2, pl1, u3, n1, n2, req1, corr1, client1, e1, e2, e3, e4, e5, e6, e7, e8, e9, _⟩ := C106_after h0 h1 c hs hci hr1
  cases same_message (b := [.mock (.conn c (.reqBegin m1) ())] ++ ((u2 ++ [.mock (.conn c (.write pl1) true)]) ++ u3))
    (by rw [show t0 ++ u1 ++ ([.mock (.conn c (.reqBegin m1) ())] ++ ((u2 ++ [.mock (.conn c (.write pl1) true)]) ++ u3)) = t0 ++ ta by rw [e1]; simp]; exact hm1) e5
  obtain ⟨rfl, rfl, _⟩ := C103_unambiguous (e := []) (e' := []) ha1 hb1 e6 e7 rfl
  obtain ⟨x, g3, _, _, g5⟩ := C59_offset_fetch e8
  cases framed_unique hf1 e9
  rw [hd1] at g3; cases g3
  obtain ⟨_, kex, _, k, hk⟩ := g5 _ ht1 _ hp1
  rw [hn1, hi1] at kex
  rw [hn1, hi1, hg1, ho1] at hk
  rw [e1, mocks_append, effectsOf_append, mocks_append (u2 ++ _), effectsOf_append] at low
  have a2 : o.toInt ≤ ((n2.sys.view 0).committed t p g).toInt := by
    rw [(C46_kept e3.sys).2.1]
    conv => rhs; rw [← List.take_append_drop k (effectsOf (mocks (u2 ++ [NEv.mock (.conn c (.write pl1) true)]))), committedFrom_append]
    exact committedFrom_above (by rw [← hk]) fun o' ho' => low o' (by simp [List.mem_of_mem_drop ho'])
  have a3 : o.toInt ≤ ((na.sys.view 0).committed t p g).toInt := by
    rw [(C46_kept e4.sys).2.1]
    exact committedFrom_above a2 fun o' ho' => low o' (by simp [ho'])
  exact read_above h0 (h1.append h2) hs' rfl h1 h2 (fun o' ho' => low o' (by simp [ho'])) a3 ((C46_kept e4.sys).2.2.2 _ _ kex) hlate hm ha hb hg hr

/-- After an OffsetCommit answered without error the committed offset is at least what was sent, if no reset goes below that meanwhile. -/
theorem commit_above {sv : Server} {clock : Int} {k : Nat} {q : CommitRequest} {c : I32} {t1 tr : List SEv} {s1 s2 : Sys} (h : Exchange sv clock k (.offsetCommit q) c t1 s1 tr s2) :
    ∃ x, Client.response Client.commit (sent (actsOf k tr)) = some ((c, x), []) ∧
      List.Forall₂ (fun (qt : CommitTopic) (rt : CommitRespTopic) => rt.name = qt.name ∧
        List.Forall₂ (fun (qp : CommitPartition) (rp : CommitRespPartition) => rp.partitionIndex = qp.partitionIndex ∧
          (rp.errorCode = 0 → (s2.view 0).hasPartition qt.name qp.partitionIndex ∧
             ((∀ o, .reset qt.name qp.partitionIndex q.groupId o ∈ effectsOf tr → qp.committedOffset.toInt ≤ o) →
               qp.committedOffset.toInt ≤ ((s2.view 0).committed qt.name qp.partitionIndex q.groupId).toInt)))
          qt.partitions rt.partitions) q.topics x.topics := by
  obtain ⟨ctx, es, h1, h2, h3⟩ := h.run
  obtain ⟨x, ta, tb, w1, rfl, h4, h5, h6, _⟩ := commit_request h1
  refine ⟨x, by rw [← h2]; exact h6, List.Forall₂.imp ?_ (C25_commit_answers h4)⟩
  rintro qt rt ⟨e1, e2⟩
  refine ⟨e1, List.Forall₂.imp ?_ e2⟩
  rintro qp rp ⟨g1, _, ⟨u0, u1, wm, rfl, g3, g4, g5⟩, g6⟩
  refine ⟨g1, fun g2 => ⟨(g4.append h5).hasPartition (g5.1 g2), fun hn => ?_⟩⟩
  obtain ⟨v0, v1, wn, ev, k3, k4, k5⟩ := g6 g2
  have := (k4.append h5).committed qt.name qp.partitionIndex q.groupId
  rw [show (s2.view 0).committed qt.name qp.partitionIndex q.groupId = (s2.view ctx).committed qt.name qp.partitionIndex q.groupId from rfl, this]
  refine committedFrom_above k5 fun o ho => hn o ?_
  rw [← h3, ev, List.append_assoc, effects_append]
  exact List.mem_append_right _ ho

/-- **C130**, commits: a client has sent an OffsetCommit request of the group with offset `o` after `t0`, and has received the response, without error. When `t0` had happened, all calls that set
that offset to less than `o` had returned. Then every OffsetFetch request of the group that any client completes later is answered, if it asks for the partition, with an entry for it, and with no
smaller offset. -/
theorem C130_commit {sv : Server} {clock : Int} {t0 ta tb : List NEv} {n0 na n : Net} (h0 : Net.Run (Net.new sv clock) t0 n0) (h1 : Net.Run n0 ta na) (h2 : Net.Run na tb n) {c d i j : Nat}
    (hs : SmallReplies sv (actsOf c (mocks (t0 ++ ta)))) (hs' : SmallReplies sv (actsOf d (mocks (t0 ++ (ta ++ tb))))) {t g : Bytes} {p : I32} {o : I64}
    (hc : CommitAcked (t0 ++ ta) c i t p g o) (hci : (frames (asked c t0)).length ≤ i) (hset : SetBackDone sv clock t0 n0 (t0 ++ (ta ++ tb)) t p g o)
    (hlate : (frames (asked d (t0 ++ ta))).length ≤ j) {msg r : Bytes} {q : OffsetFetchRequest} {corr : I32} {client : Option Bytes}
    (hm : (frames (asked d (t0 ++ (ta ++ tb))))[j]? = some msg) (ha : Accepted (.offsetFetch q) corr client msg) (hb : FitsBuffer (.offsetFetch q) corr client) (hg : q.groupId = g)
    (hr : (frames (got d (t0 ++ (ta ++ tb))))[j]? = some r) :
    ∃ b x, Framed b [r] ∧ Client.response Client.offsetFetch b = some ((corr, x), []) ∧
      ((∃ y ∈ q.topics, y.name = t ∧ p ∈ y.partitionIndexes) → ∃ y ∈ x.topics, y.name = t ∧ ∃ z ∈ y.partitions, z.partitionIndex = p) ∧
      ∀ y ∈ x.topics, y.name = t → ∀ z ∈ y.partitions, z.partitionIndex = p → o.toInt ≤ z.committedOffset.toInt := by
  have low := later_resets h0 (h1.append h2) hset
  rw [mocks_append, effectsOf_append] at low
  obtain ⟨cm, ca, cb, cg, cr, cf, cd, cqt, crt, cqp, crp, rfl, rfl, rfl, ce⟩ := hc
  obtain ⟨u1, m1, u2, pl1, u3, n1, n2, req1, corr1, client1, e1, e2, e3, e4, e5, e6, e7, e8, e9, _⟩ := C106_after h0 h1 c hs hci cr
  cases same_message (b := [.mock (.conn c (.reqBegin m1) ())] ++ ((u2 ++ [.mock (.conn c (.write pl1) true)]) ++ u3))
    (by rw [show t0 ++ u1 ++ ([.mock (.conn c (.reqBegin m1) ())] ++ ((u2 ++ [.mock (.conn c (.write pl1) true)]) ++ u3)) = t0 ++ ta by rw [e1]; simp]; exact cm) e5
  obtain ⟨rfl, rfl, _⟩ := C103_unambiguous (e := []) (e' := []) ca cb e6 e7 rfl
  obtain ⟨x, k1, k2⟩ := commit_above e8
  cases framed_unique cf e9
  rw [cd] at k1; cases k1
  obtain ⟨_, k5⟩ := forall₂_getElem? k2 cqt crt
  obtain ⟨_, k7⟩ := forall₂_getElem? k5 cqp crp
  obtain ⟨kex, k8⟩ := k7 ce
  rw [cg] at k8
  rw [e1, mocks_append, effectsOf_append, mocks_append (u2 ++ _), effectsOf_append] at low
  have a2 := k8 fun o' ho' => low o' (by simp [ho'])
  have a3 := (C46_kept e4.sys).2.1 _ _ g ▸ committedFrom_above a2 (h := effectsOf (mocks u3)) fun o' ho' => low o' (by simp [ho'])
  exact read_above h0 (h1.append h2) hs' rfl h1 h2 (fun o' ho' => low o' (by simp [ho'])) a3 ((C46_kept e4.sys).2.2.2 _ _ kex) hlate hm ha hb hg hr

end KM.Props
