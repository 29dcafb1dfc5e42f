import Verif.Props.Visible
/-
Property C73: what a request does with a partition happens at one moment between the taking up of the request and its answer (linearizability, partition by
partition); a request that names several partitions is not one moment for all of them.
-/
namespace KM.Props
open KM Spec

/-- At some moment of a run from `s` to `s'`, the state of the mock satisfies `P`. -/
def Sometime (s : Sys) (tr : List SEv) (s' : Sys) (P : Sys → Prop) : Prop :=
  ∃ ta tb sm, tr = ta ++ tb ∧ Sys.Run s ta sm ∧ Sys.Run sm tb s' ∧ P sm

theorem committed_missing {w : World} {t : Bytes} {p : I32} (h : ¬ w.hasPartition t p) (g : Bytes) : w.committed t p g = 0 := by
  unfold World.hasPartition at h
  unfold World.committed
  cases e : w.ds.part? t p with
  | none => rfl
  | some kp => rw [e] at h; exact absurd rfl h

/-- A partition comes into being empty, without offsets. -/
theorem step_created {s s' : Sys} {e : SEv} (h : Sys.Step s e s') {t : Bytes} {p : I32} (hn : ¬ (s.view 0).hasPartition t p) (hp : (s'.view 0).hasPartition t p) :
    (s'.view 0).log t p = [] ∧ ∀ g, (s'.view 0).committed t p g = 0 := by
  have same : s'.ds = s.ds → (s'.view 0).log t p = [] ∧ ∀ g, (s'.view 0).committed t p g = 0 := by
    intro e
    unfold World.hasPartition Sys.view at hn hp
    rw [e] at hp; exact absurd hp hn
  have act : ∀ {a : Act} {r : a.Resp} {w w' : World}, a.step w r w' → w.ds = s.ds → s'.ds = w'.ds →
      (s'.view 0).log t p = [] ∧ ∀ g, (s'.view 0).committed t p g = 0 := by
    intro a r w w' ha e1 e2
    rcases step_part ha t p with h1 | ⟨_, h1, _⟩ | ⟨kp, h1, _⟩
    · unfold World.hasPartition Sys.view at hn hp
      simp only at hn hp
      rw [e2, h1, e1] at hp; exact absurd hp hn
    · constructor
      · unfold World.log Sys.view
        simp only [e2, h1]; rfl
      · intro g
        unfold World.committed Sys.view
        simp only [e2, h1]; rfl
    · unfold World.hasPartition Sys.view at hn
      simp only at hn
      rw [← e1, h1] at hn; exact absurd rfl hn
  cases h with
  | life hn => exact same (next_data hn).2.1
  | conn _ _ ha => exact act ha rfl rfl
  | unroll => exact same rfl
  | call _ ha => exact act ha rfl rfl
  | tick => exact same rfl

theorem run_created {s s' : Sys} {tr : List SEv} (h : Sys.Run s tr s') {t : Bytes} {p : I32} (hn : ¬ (s.view 0).hasPartition t p) (hp : (s'.view 0).hasPartition t p) :
    Sometime s tr s' fun sm => (sm.view 0).hasPartition t p ∧ (sm.view 0).log t p = [] ∧ ∀ g, (sm.view 0).committed t p g = 0 := by
  induction h with
  | nil => exact absurd hp hn
  | @cons s s1 s2 e es h hs ih =>
    by_cases h1 : (s1.view 0).hasPartition t p
    · exact ⟨[e], es, s1, rfl, .cons h (.nil _), hs, h1, step_created h hn h1⟩
    · obtain ⟨ta, tb, sm, e1, h2, h3, h4⟩ := ih h1 hp
      exact ⟨e :: ta, tb, sm, by rw [e1]; rfl, .cons h h2, h3, h4⟩

/-- After any number of the effects of a run there is a moment at which all is as these effects leave it; a moment at which the partition exists, if it exists at
the end. -/
theorem sometime {s s' : Sys} {tr : List SEv} (h : Sys.Run s tr s') (n : Nat) (t : Bytes) (p : I32) :
    Sometime s tr s' fun sm => ((s'.view 0).hasPartition t p → (sm.view 0).hasPartition t p) ∧
      (sm.view 0).log t p = (s.view 0).log t p ++ Spec.posts ((effectsOf tr).take n) t p ∧
      ∀ g, ((sm.view 0).committed t p g).toInt = Spec.committedFrom ((s.view 0).committed t p g).toInt ((effectsOf tr).take n) t p g := by
  obtain ⟨ta, tb, rfl, e1, e2⟩ := List.filterMap_eq_append_iff.1 (show effectsOf tr = (effectsOf tr).take n ++ (effectsOf tr).drop n by simp)
  obtain ⟨sm, h1, h2⟩ := run_split h
  obtain ⟨k1, k2, _⟩ := C46_kept h1
  rw [← e1]
  by_cases hm : (s'.view 0).hasPartition t p → (sm.view 0).hasPartition t p
  · exact ⟨ta, tb, sm, rfl, h1, h2, hm, k1 t p, k2 t p⟩
  · rw [Classical.not_imp] at hm
    obtain ⟨tc, td, sx, rfl, h3, h4, h5, h6, h7⟩ := run_created h2 hm.2 hm.1
    refine ⟨ta ++ tc, td, sx, by simp, h1.append h3, h4, fun _ => h5, ?_, fun g => ?_⟩
    · rw [h6, ← log_missing hm.2]; exact k1 t p
    · rw [h7, ← committed_missing hm.2 g]; exact k2 t p g

theorem posts_take {h : List Eff} {t : Bytes} {p : I32} {m : Nat} (hm : m ≤ (Spec.posts h t p).length) :
    ∃ n, Spec.posts (h.take n) t p = (Spec.posts h t p).take m := by
  induction h generalizing m with
  | nil => exact ⟨0, by simp [Spec.posts]⟩
  | cons e h ih =>
    rcases m with _ | m
    · exact ⟨0, by simp [Spec.posts]⟩
    have skip : Spec.posts (e :: h) t p = Spec.posts h t p → (∀ l, Spec.posts (e :: l) t p = Spec.posts l t p) →
        ∃ n, Spec.posts ((e :: h).take n) t p = (Spec.posts (e :: h) t p).take (m + 1) := by
      intro h1 h2
      rw [h1] at hm
      obtain ⟨n, hn⟩ := ih hm
      exact ⟨n + 1, by rw [h1, List.take_succ_cons, h2, hn]⟩
    cases e with
    | post t' p' r =>
      by_cases e : t' = t ∧ p' = p
      · simp only [Spec.posts, if_pos e, List.length_cons] at hm
        obtain ⟨n, hn⟩ := ih (m := m) (by omega)
        exact ⟨n + 1, by simp only [List.take_succ_cons, Spec.posts, if_pos e, hn]⟩
      · exact skip (by simp only [Spec.posts, if_neg e]) fun l => by simp only [Spec.posts, if_neg e]
    | _ => exact skip rfl fun _ => rfl

/-- When a partition had between `s` and `s'` at least its first `n` records, there was a moment at which it had just these. -/
theorem sometime_log {s s' : Sys} {tr : List SEv} (h : Sys.Run s tr s') {t : Bytes} {p : I32} {n : Nat} (h1 : ((s.view 0).log t p).length ≤ n)
    (h2 : n ≤ ((s'.view 0).log t p).length) :
    Sometime s tr s' fun sm => ((s'.view 0).hasPartition t p → (sm.view 0).hasPartition t p) ∧ (sm.view 0).log t p = ((s'.view 0).log t p).take n := by
  have hk := (C46_kept h).1 t p
  rw [hk, List.length_append] at h2
  obtain ⟨m, hm⟩ := posts_take (h := effectsOf tr) (t := t) (p := p) (m := n - ((s.view 0).log t p).length) (by omega)
  obtain ⟨ta, tb, sm, e, h3, h4, h5, h6, _⟩ := sometime h m t p
  refine ⟨ta, tb, sm, e, h3, h4, h5, ?_⟩
  rw [h6, hm, hk, List.take_append, List.take_of_length_le h1]

/-! ### Fetch, ListOffsets, OffsetFetch -/

/-- **C73**, Fetch: with one partition per topic, and as long as no record and the response itself are 2 GiB or more, there is for each partition a moment between the
taking up of the request and its answer such that the messages given for the partition are exactly its records at that moment, from the requested offset on.
Missing for the full statement: one moment for all partitions of the request, see C96 (`C96_snapshot_partial`, `C96_false`); and requests that name several partitions of
one topic, for which already C59 is false, `C59_false`. -/
theorem C73_fetch_partial {sv : Server} {clock : Int} {k : Nat} {q : FetchRequest} {c : I32} {t1 tr : List SEv} {s1 s2 : Sys}
    (h : Exchange sv clock k (.fetch q) c t1 s1 tr s2) (single : ∀ t ∈ q.topics, ∃ p, t.partitions = [p])
    (hs : ∀ t p, ∀ r ∈ (s2.view 0).log t p, wireSize r < 2 ^ 31) (hl : (sent (actsOf k tr)).length < 2 ^ 31) :
    ∃ x, Client.response Client.fetch (sent (actsOf k tr)) = some ((c, 0, x), []) ∧
      List.Forall₂ (fun (qt : FetchTopic) (rt : Bytes × List Client.FetchedPartition) => rt.1 = qt.topic ∧
        List.Forall₂ (fun (par : FetchPartition) (fp : Client.FetchedPartition) => fp.partition = par.partition ∧ fp.errorCode = 0 ∧
          fp.highWatermark = BitVec.ofInt 64 (par.fetchOffset.toInt + fp.messages.length) ∧
          Sometime s1 tr s2 fun sm => Labelled par.fetchOffset.toInt (((sm.view 0).log qt.topic par.partition).drop par.fetchOffset.toInt.toNat) fp.messages)
          qt.partitions rt.2) q.topics x := by
  obtain ⟨x, h1, h2⟩ := C59_fetch_partial h single hs hl
  obtain ⟨_, _, _, h3⟩ := h.serves
  refine ⟨x, h1, List.Forall₂.imp ?_ h2⟩
  rintro qt rt ⟨e1, e2⟩
  refine ⟨e1, List.Forall₂.imp ?_ e2⟩
  rintro par fp ⟨g1, g2, n, g3, g4, g5, g6, _⟩
  refine ⟨g1, g2, g6, ?_⟩
  obtain ⟨ta, tb, sm, e, h4, h5, _, h6⟩ := sometime_log h3.during g3 g4
  exact ⟨ta, tb, sm, e, h4, h5, by show Labelled _ (List.drop _ ((sm.view 0).log ..)) _; rw [h6]; exact g5⟩

/-- What ListOffsets says of a partition in state `s`: code 3 if it does not exist. Otherwise code 0, and for timestamp -1 the number of its records, for -2 zero (and the time
of the first record), for any other the `TimeOffset` of C30. -/
def ListAnswer (s : Sys) (t : Bytes) (qp : ListOffsetsPartition) (rp : ListOffsetsRespPartition) : Prop :=
  let log := (s.view 0).log t qp.partitionIndex
  ¬ (s.view 0).hasPartition t qp.partitionIndex ∧ rp.errorCode = 3 ∨
  (s.view 0).hasPartition t qp.partitionIndex ∧ rp.errorCode = 0 ∧
    (qp.timestamp.toInt = -1 → rp.offset = BitVec.ofNat 64 log.length) ∧
    (qp.timestamp.toInt = -2 → rp.offset = 0 ∧ rp.timestamp = (log[0]?.map (·.timestamp)).getD 0) ∧
    (qp.timestamp.toInt ≠ -1 → qp.timestamp.toInt ≠ -2 → ∃ o, rp.offset = BitVec.ofNat 64 o ∧ TimeOffset log qp.timestamp.toInt o)

/-- **C73**, ListOffsets: for each partition there is a moment between the taking up of the request and its answer such that the answer for the partition is the right one
at that moment. Missing for the full statement: one moment for all partitions, `C73_false`. -/
theorem C73_list_offsets_partial {sv : Server} {clock : Int} {k : Nat} {q : ListOffsetsRequest} {c : I32} {t1 tr : List SEv} {s1 s2 : Sys}
    (h : Exchange sv clock k (.listOffsets q) c t1 s1 tr s2) :
    ∃ x, Client.response Client.listOffsets (sent (actsOf k tr)) = some ((c, x), []) ∧
      List.Forall₂ (fun (qt : ListOffsetsTopic) (rt : ListOffsetsRespTopic) => rt.name = qt.name ∧
        List.Forall₂ (fun (qp : ListOffsetsPartition) (rp : ListOffsetsRespPartition) => rp.partitionIndex = qp.partitionIndex ∧
          Sometime s1 tr s2 fun sm => ListAnswer sm qt.name qp rp) qt.partitions rt.partitions) q.topics x.topics := by
  obtain ⟨x, h1, h2⟩ := C59_list_offsets h
  obtain ⟨_, _, _, h3⟩ := h.serves
  refine ⟨x, h1, List.Forall₂.imp ?_ h2⟩
  rintro qt rt ⟨e1, e2⟩
  refine ⟨e1, List.Forall₂.imp ?_ e2⟩
  rintro qp rp ⟨g1, g2⟩
  refine ⟨g1, ?_⟩
  rcases g2 with ⟨g2, g3⟩ | ⟨g2, g3, n, g4, g5, g6, g7, g8⟩
  · exact ⟨[], tr, s1, rfl, .nil _, h3.during, .inl ⟨g3, g2⟩⟩
  · obtain ⟨ta, tb, sm, e, h4, h5, h6, h7⟩ := sometime_log h3.during g4 g5
    refine ⟨ta, tb, sm, e, h4, h5, .inr ⟨h6 g3, g2, ?_, ?_, ?_⟩⟩
    · intro ht; rw [h7, List.length_take, Nat.min_eq_left g5]; exact g6 ht
    · rw [h7]; exact g7
    · rw [h7]; exact g8

/-- **C73**, OffsetFetch: for each partition named there is a moment between the taking up of the request and its answer at which the partition does not exist, if there is no
entry for it; and for each entry, one at which the partition exists and the group's committed offset is the one given. Missing for the full statement: one moment for all
partitions. -/
theorem C73_offset_fetch_partial {sv : Server} {clock : Int} {k : Nat} {q : OffsetFetchRequest} {c : I32} {t1 tr : List SEv} {s1 s2 : Sys}
    (h : Exchange sv clock k (.offsetFetch q) c t1 s1 tr s2) :
    ∃ x, Client.response Client.offsetFetch (sent (actsOf k tr)) = some ((c, x), []) ∧
      (∀ qt ∈ q.topics, ∀ p ∈ qt.partitionIndexes, (¬ ∃ rt ∈ x.topics, rt.name = qt.name ∧ ∃ rp ∈ rt.partitions, rp.partitionIndex = p) →
        Sometime s1 tr s2 fun sm => ¬ (sm.view 0).hasPartition qt.name p) ∧
      ∀ rt ∈ x.topics, ∀ rp ∈ rt.partitions, (∃ qt ∈ q.topics, qt.name = rt.name ∧ rp.partitionIndex ∈ qt.partitionIndexes) ∧ rp.errorCode = 0 ∧
        Sometime s1 tr s2 fun sm => (sm.view 0).hasPartition rt.name rp.partitionIndex ∧
          rp.committedOffset = (sm.view 0).committed rt.name rp.partitionIndex q.groupId := by
  obtain ⟨x, h1, _, h2, h4⟩ := C59_offset_fetch h
  obtain ⟨_, _, _, h3⟩ := h.serves
  refine ⟨x, h1, ?_, ?_⟩
  · intro qt hqt p hp hn
    exact ⟨[], tr, s1, rfl, .nil _, h3.during, fun hp' => hn (h2 qt hqt p hp hp')⟩
  · intro rt hrt rp hrp
    obtain ⟨g1, g2, g3, n, g4⟩ := h4 rt hrt rp hrp
    obtain ⟨ta, tb, sm, e, h5, h6, h7, _, h8⟩ := sometime h3.during n rt.name rp.partitionIndex
    exact ⟨g1, g3, ta, tb, sm, e, h5, h6, h7 g2, BitVec.eq_of_toInt_eq (by rw [g4, h8])⟩

/-! ### OffsetCommit -/

/-- The commits of a request that were accepted according to the response, in the order of the request. -/
def accepted (q : CommitRequest) (x : CommitResponse) : List Eff :=
  (q.topics.zip x.topics).flatMap fun (qt, rt) => (qt.partitions.zip rt.partitions).flatMap fun (qp, rp) =>
    if rp.errorCode = 0 then [.commit qt.name qp.partitionIndex q.groupId qp.committedOffset.toInt] else []

theorem forEach_effects {α β : Type} {f : α → Prog β} {xs : List α} {ys : List β} {w w' : World} {tr : List Ev} {L : α → β → List Eff}
    (hf : ∀ x wa wb tr y, Exec wa (f x) tr wb (.ret y) → effectsBy (own tr) = L x y) (h : Exec w (Prog.forEach f xs) tr w' (.ret ys)) :
    effectsBy (own tr) = (xs.zip ys).flatMap fun (x, y) => L x y := by
  induction xs generalizing w w' tr ys with
  | nil =>
    obtain ⟨e, h1⟩ := exec_ret_inv h
    rw [own_envSteps h1]; rfl
  | cons x xs ih =>
    obtain ⟨t1, t2, w1, y, h1, h2, rfl⟩ := exec_bind_ret h
    obtain ⟨t3, t4, w2, ys', h3, h4, rfl⟩ := exec_bind_ret h2
    obtain ⟨e, h6⟩ := exec_ret_inv h4
    cases e
    rw [own_append, own_append, own_envSteps h6, List.append_nil, effectsBy_append, hf _ _ _ _ _ h1, ih h3]
    rfl

theorem offsetCommit_effects {q : CommitRequest} {x : CommitResponse} {w w' : World} {tr : List Ev} (h : Exec w (offsetCommit q) tr w' (.ret x)) :
    effectsBy (own tr) = accepted q x := by
  obtain ⟨ts, h0, rfl⟩ := exec_map_ret h
  refine forEach_effects (L := fun (qt : CommitTopic) (rt : CommitRespTopic) => (qt.partitions.zip rt.partitions).flatMap fun (qp, rp) =>
    if rp.errorCode = 0 then [.commit qt.name qp.partitionIndex q.groupId qp.committedOffset.toInt] else []) ?_ h0
  intro qt wa wb tr rt hx
  obtain ⟨t2, w1, kt, w2, t3, h1, s1, h2, rfl⟩ := exec_act_ret hx
  obtain ⟨ps, h3, rfl⟩ := exec_map_ret h2
  rw [own_append, own_envSteps h1, List.nil_append]
  show effectsBy (own t3) = _
  refine forEach_effects (L := fun (qp : CommitPartition) (rp : CommitRespPartition) =>
    if rp.errorCode = 0 then [.commit qt.name qp.partitionIndex q.groupId qp.committedOffset.toInt] else []) ?_ h3
  intro qp wa wb tr rp hy
  unfold commitPartition at hy
  have no : ∀ {wa wb : World} {tr : List Ev}, Exec wa (Prog.ret ⟨qp.partitionIndex, unknownTopicOrPartition⟩ : Prog CommitRespPartition) tr wb (.ret rp) →
      effectsBy (own tr) = if rp.errorCode = 0 then [.commit qt.name qp.partitionIndex q.groupId qp.committedOffset.toInt] else [] := by
    intro wa wb tr hz
    obtain ⟨e, h4⟩ := exec_ret_inv hz
    cases e
    rw [own_envSteps h4]; rfl
  cases kt with
  | false => exact no hy
  | true =>
    rw [if_pos rfl] at hy
    obtain ⟨t4, w4, r4, w5, t5, h4, s4, h5, rfl⟩ := exec_act_ret hy
    rw [own_append, own_envSteps h4, List.nil_append]
    show effectsBy (own t5) = _
    cases r4 with
    | false => exact no h5
    | true =>
      rw [if_pos rfl] at h5
      obtain ⟨t6, w6, r6, w7, t7, h6, s6, h7, rfl⟩ := exec_act_ret h5
      obtain ⟨e, h8⟩ := exec_ret_inv h7
      cases e
      rw [own_append, own_envSteps h6, List.nil_append, own_mine, own_envSteps h8]; rfl

/-- Some step of a run, from `sm` to `sm'`, is the event `e`. -/
def AtStep (s : Sys) (tr : List SEv) (s' : Sys) (e : SEv) (P : Sys → Sys → Prop) : Prop :=
  ∃ ta tb sm sm', tr = ta ++ e :: tb ∧ Sys.Run s ta sm ∧ Sys.Step sm e sm' ∧ Sys.Run sm' tb s' ∧ P sm sm'

/-- The step from `s` to `s'` raises the group's offset to at least `o`, and changes neither a log nor any other offset. -/
structure Raises (t : Bytes) (p : I32) (g : Bytes) (o : Int) (s s' : Sys) : Prop where
  there : (s.view 0).hasPartition t p
  raised : ((s'.view 0).committed t p g).toInt = max ((s.view 0).committed t p g).toInt o
  others : ∀ t' p' g', (t', p', g') ≠ (t, p, g) → (s'.view 0).committed t' p' g' = (s.view 0).committed t' p' g'
  logs : ∀ t' p', (s'.view 0).log t' p' = (s.view 0).log t' p'

theorem commit_raises {k : Nat} {s s' : Sys} {t : Bytes} {p : I32} {g : Bytes} {o : I64} (h : Sys.Step s (.conn k (.commit t p g o) ()) s') :
    Raises t p g o.toInt s s' := by
  obtain ⟨h1, h2, _⟩ := C46_kept (.cons h (.nil _))
  refine ⟨?_, ?_, ?_, ?_⟩
  · cases h with
    | conn _ _ ha => exact ha.1
  · rw [h2]
    simp [effectsOf, Act.effect, Spec.committedFrom]
  · intro t' p' g' hne
    apply BitVec.eq_of_toInt_eq
    rw [h2]
    have : ¬ (t = t' ∧ p = p' ∧ g = g') := by
      rintro ⟨rfl, rfl, rfl⟩; exact hne rfl
    simp [effectsOf, Act.effect, Spec.committedFrom, this]
  · intro t' p'
    rw [h1]
    simp [effectsOf, Act.effect, Spec.posts]

theorem forall₂_zip {α β : Type} {R : α → β → Prop} {as : List α} {bs : List β} (h : List.Forall₂ R as bs) :
    List.Forall₂ (fun a b => R a b ∧ (a, b) ∈ as.zip bs) as bs := by
  induction h with
  | nil => exact .nil
  | cons h _ ih => exact .cons ⟨h, by simp⟩ (ih.imp fun _ _ ⟨a, b⟩ => ⟨a, by simp [b]⟩)

/-- **C73**, OffsetCommit: what the request does to the store is to make the commits that the response says were accepted (code 0), in the order of the request, and nothing else.
Each of them is made at one moment between the taking up of the request and its answer, a moment at which the partition exists; the offset is then raised to the one sent, and
nothing else changes. For each partition that is refused (code 3) there is a moment at which it does not exist. Missing for the full statement: one moment for all partitions. -/
theorem C73_commit_partial {sv : Server} {clock : Int} {k : Nat} {q : CommitRequest} {c : I32} {t1 tr : List SEv} {s1 s2 : Sys}
    (h : Exchange sv clock k (.offsetCommit q) c t1 s1 tr s2) :
    ∃ x, Client.response Client.commit (sent (actsOf k tr)) = some ((c, x), []) ∧ effectsBy (actsOf k tr) = accepted q x ∧
      List.Forall₂ (fun (qt : CommitTopic) (rt : CommitRespTopic) => rt.name = qt.name ∧
        List.Forall₂ (fun (qp : CommitPartition) (rp : CommitRespPartition) => rp.partitionIndex = qp.partitionIndex ∧
          (rp.errorCode = 3 ∧ (Sometime s1 tr s2 fun sm => ¬ (sm.view 0).hasPartition qt.name qp.partitionIndex) ∨
           rp.errorCode = 0 ∧ AtStep s1 tr s2 (.conn k (.commit qt.name qp.partitionIndex q.groupId qp.committedOffset) ())
             (Raises qt.name qp.partitionIndex q.groupId qp.committedOffset.toInt)))
          qt.partitions rt.partitions) q.topics x.topics := by
  obtain ⟨x, h1, h2⟩ := C59_commit h
  obtain ⟨_, _, _, h3⟩ := h.serves
  have key : effectsBy (actsOf k tr) = accepted q x := by
    obtain ⟨ctx, es, k1, k2, k3⟩ := h.run
    obtain ⟨x', ta, tb, w1, rfl, h4, h5, h6, h7⟩ := commit_request k1
    unfold ClientReads at h6
    rw [k2, h1] at h6
    cases h6
    rw [← k2, own_append, effectsBy_append, h7, List.append_nil, offsetCommit_effects h4]
  refine ⟨x, h1, key, List.Forall₂.imp ?_ (forall₂_zip h2)⟩
  rintro qt rt ⟨⟨e1, e2⟩, z1⟩
  refine ⟨e1, List.Forall₂.imp ?_ (forall₂_zip e2)⟩
  rintro qp rp ⟨⟨g1, g2⟩, z2⟩
  refine ⟨g1, ?_⟩
  rcases g2 with ⟨g2, g3⟩ | ⟨g2, _⟩
  · exact .inl ⟨g2, [], tr, s1, rfl, .nil _, h3.during, g3⟩
  · refine .inr ⟨g2, ?_⟩
    have hm : (.commit qt.name qp.partitionIndex q.groupId qp.committedOffset.toInt : Eff) ∈ effectsBy (actsOf k tr) := by
      rw [key]
      unfold accepted
      refine List.mem_flatMap.2 ⟨_, z1, List.mem_flatMap.2 ⟨_, z2, ?_⟩⟩
      simp [g2]
    have hm' : SEv.conn k (.commit qt.name qp.partitionIndex q.groupId qp.committedOffset) () ∈ tr := by
      unfold effectsBy actsOf at hm
      obtain ⟨e, he, h5⟩ := List.mem_filterMap.1 hm
      obtain ⟨e', he', h6⟩ := List.mem_filterMap.1 he
      cases e' with
      | conn c' a r =>
        simp only at h6
        split at h6
        · next e => 
          cases h6; subst e
          cases a <;> simp only [Act.effect, reduceCtorEq] at h5
          · cases h5
          · simp only [Option.some.injEq, Effect.commit.injEq] at h5
            obtain ⟨rfl, rfl, rfl, h5⟩ := h5
            rw [BitVec.eq_of_toInt_eq h5] at he'
            exact he'
          · cases h5
        · cases h6
      | _ => cases h6
    obtain ⟨ta, tb, rfl⟩ := List.append_of_mem hm'
    obtain ⟨sm, h5, h6⟩ := run_split h3.during
    cases h6 with
    | cons h6 h7 => exact ⟨ta, tb, sm, _, rfl, h5, h6, h7, commit_raises h6⟩

/-! ### Several partitions -/

/-- A request for the ends of the logs of two topics. -/
def askEnds : Request := .listOffsets ⟨-1, [⟨[116], [⟨0, -1⟩]⟩, ⟨[117], [⟨0, -1⟩]⟩]⟩

theorem askEnds_wf : askEnds.WellFormed := by
  unfold askEnds Request.WellFormed ShortList ShortStr
  decide

/-- The connection has dealt with the first topic; a record is posted to the first topic, then one to the second; the connection goes on. -/
def torn : List Pick := List.replicate 4 (.conn 0) ++ caller 1 (.simplePost [116] 0 none (some [3])) 6 ++ caller 1 (.simplePost [117] 0 none (some [4])) 6 ++
  List.replicate 7 (.conn 0)

/-- What the client is told: each topic has one record. -/
def tornAnswer : ListOffsetsResponse := ⟨[⟨[116], [⟨0, 0, 0, 1⟩]⟩, ⟨[117], [⟨0, 0, 0, 1⟩]⟩]⟩

set_option maxRecDepth 100000 in
/-- **C73** is false for several partitions at once: a client that asks for the ends of the logs of two topics may be given, as the end of the first, that before a post to the
first topic, and as the end of the second, that after a later post to the second topic. At no moment was the whole answer right. -/
theorem C73_false : ∃ (q : ListOffsetsRequest) (t1 tr : List SEv) (s1 s2 : Sys) (x : ListOffsetsResponse), Exchange ⟨9092, []⟩ 0 0 (.listOffsets q) 7 t1 s1 tr s2 ∧
    Client.response Client.listOffsets (sent (actsOf 0 tr)) = some ((7, x), []) ∧
    ¬ Sometime s1 tr s2 fun sm => List.Forall₂ (fun (qt : ListOffsetsTopic) (rt : ListOffsetsRespTopic) =>
      List.Forall₂ (fun qp rp => ListAnswer sm qt.name qp rp) qt.partitions rt.partitions) q.topics x.topics := by
  obtain ⟨t0, h⟩ := called_run 4 creating _ rfl
  refine ⟨_, _, eventsOf torn (taken 0 askEnds 7 createdState), taken 0 askEnds 7 createdState, _, tornAnswer,
    exchange_of_picks h 0 torn askEnds 7 askEnds_wf (by decide +kernel), by decide +kernel, ?_⟩
  rintro ⟨ta, tb, sm, e, h1, h2, h3⟩
  have he : effectsOf (eventsOf torn (taken 0 askEnds 7 createdState)) =
      [.post [116] 0 ⟨0, 0, none, some [3], []⟩, .post [117] 0 ⟨0, 0, none, some [4], []⟩] := by rfl
  have l1 : ((taken 0 askEnds 7 createdState).view 0).log [116] 0 = [⟨0, 0, none, some [1, 2], []⟩] := by rfl
  have l2 : ((taken 0 askEnds 7 createdState).view 0).log [117] 0 = [] := by rfl
  rw [e] at he
  have k1 := (C46_kept h1).1 [116] 0
  have k2 := (C46_kept h1).1 [117] 0
  rw [l1] at k1
  rw [l2] at k2
  generalize taken 0 askEnds 7 createdState = s1 at *
  unfold effectsOf at he k1 k2
  rw [List.filterMap_append] at he
  generalize List.filterMap _ ta = a at he k1 k2
  generalize List.filterMap _ tb = b at he
  obtain ⟨h4, h5⟩ := List.forall₂_cons.1 h3
  obtain ⟨h6, _⟩ := List.forall₂_cons.1 h4
  obtain ⟨h7, _⟩ := List.forall₂_cons.1 (List.forall₂_cons.1 h5).1
  unfold ListAnswer at h6 h7
  simp only at h6 h7
  rw [k1] at h6
  rw [k2] at h7
  rcases h6 with ⟨_, h6⟩ | ⟨_, _, h6, _⟩
  · cases h6
  rcases h7 with ⟨_, h7⟩ | ⟨_, _, h7, _⟩
  · cases h7
  have h6 := h6 rfl
  have h7 := h7 rfl
  rcases a with _ | ⟨x, _ | ⟨y, _ | ⟨z, a⟩⟩⟩
  · cases h7
  · cases he; cases h7
  · cases he; cases h6
  · cases he

/-! ### Examples -/

/-- A record is posted while the connection is at work on a Fetch. -/
def meanwhile : List Pick := List.replicate 3 (.conn 0) ++ caller 1 (.simplePost [116] 0 none (some [3])) 6 ++ List.replicate 9 (.conn 0)

set_option synthInstance.maxSize 1000 in
/-- The hypotheses of `C73_fetch_partial`: a record is posted during the request, and is already in the answer. -/
example : (∃ t1, Exchange ⟨9092, []⟩ 0 0 askFetch 7 t1 (taken 0 askFetch 7 oneRecord) (eventsOf meanwhile (taken 0 askFetch 7 oneRecord))
      (stateAfter meanwhile (taken 0 askFetch 7 oneRecord))) ∧
    ((Client.response Client.fetch (sent (actsOf 0 (eventsOf meanwhile (taken 0 askFetch 7 oneRecord))))).map fun x =>
      x.1.2.2.map fun t => t.2.map fun p => (p.partition, p.highWatermark, p.messages.map (·.value))) = some [[(0, 2, [some [1, 2], some [3]])]] := by
  obtain ⟨t0, h⟩ := oneRecord_run
  exact ⟨⟨_, exchange_of_picks h 0 meanwhile askFetch 7 askFetch_wf (by decide +kernel)⟩, by decide +kernel⟩

set_option maxRecDepth 100000 in
/-- The hypotheses of `C73_commit_partial`: two commits are sent, one is accepted, and that one is made. -/
example : (∃ t1, Exchange ⟨9092, []⟩ 0 0 askCommit 7 t1 (taken 0 askCommit 7 oneRecord) (during 0 7 askCommit 7 oneRecord) (answered 0 7 askCommit 7 oneRecord)) ∧
    effectsBy (actsOf 0 (during 0 7 askCommit 7 oneRecord)) = [.commit [116] 0 [103] 1] := by
  obtain ⟨t0, h⟩ := oneRecord_run
  exact ⟨⟨_, exchange_of_play h 0 7 askCommit 7 askCommit_wf (by decide +kernel)⟩, rfl⟩

/-- The hypotheses of `C73_list_offsets_partial`: those of `C73_false`; and of `C73_offset_fetch_partial`. -/
example : (∃ t1, Exchange ⟨9092, []⟩ 0 0 askEnds 7 t1 (taken 0 askEnds 7 createdState) (eventsOf torn (taken 0 askEnds 7 createdState))
      (stateAfter torn (taken 0 askEnds 7 createdState))) ∧
    ∃ t1, Exchange ⟨9092, []⟩ 0 0 askOffset 7 t1 (taken 0 askOffset 7 oneRecord) (during 0 9 askOffset 7 oneRecord) (answered 0 9 askOffset 7 oneRecord) := by
  obtain ⟨t0, h⟩ := called_run 4 creating _ rfl
  obtain ⟨t0', h'⟩ := oneRecord_run
  exact ⟨⟨_, exchange_of_picks h 0 torn askEnds 7 askEnds_wf (by decide +kernel)⟩, ⟨_, exchange_of_play h' 0 9 askOffset 7 askOffset_wf (by decide +kernel)⟩⟩

end KM.Props
