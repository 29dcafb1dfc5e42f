import Verif.Props.Store
import Verif.Reach
/-
Properties C23-C27 (committed offsets) and C29-C31 (ListOffsets), under arbitrary interleaving.

`Moment w tr w' P`: at some moment of the run `tr` from `w` to `w'`, `P` holds. `ReachedBy h w`: the world `w` is reached from a
fresh mock by the history `h` of actions of any goroutines.
-/
namespace KM.Props
open KM

/-! ### C25 OffsetCommit answers every requested partition -/

/-- The answer to one requested partition: same number; code 0 or 3; at some moment of the call, code 0 means the partition exists and
code 3 that it does not; and code 0 means that at some moment of the call the group's committed offset is at least the requested one. -/
def CommitAnswered (w : World) (tr : List Ev) (w' : World) (group topic : Bytes) (qp : CommitPartition) (rp : CommitRespPartition) : Prop :=
  rp.partitionIndex = qp.partitionIndex ∧ (rp.errorCode = 0 ∨ rp.errorCode = 3) ∧
  Moment w tr w' (fun wm => rp.errorCode = 0 ↔ wm.hasPartition topic qp.partitionIndex) ∧
  (rp.errorCode = 0 → Moment w tr w' fun wm => qp.committedOffset.toInt ≤ (wm.committed topic qp.partitionIndex group).toInt)

theorem CommitAnswered.lift {w wa wb w' : World} {t0 t t1 : List Ev} {g n : Bytes} {qp : CommitPartition} {rp : CommitRespPartition}
    (h0 : Steps w t0 wa) (h1 : Steps wb t1 w') (h : CommitAnswered wa t wb g n qp rp) : CommitAnswered w (t0 ++ t ++ t1) w' g n qp rp :=
  ⟨h.1, h.2.1, h.2.2.1.lift h0 h1, fun e => (h.2.2.2 e).lift h0 h1⟩

theorem commitPartition_ret {g n : Bytes} {qp : CommitPartition} {rp : CommitRespPartition} {w w' : World} {tr : List Ev}
    (h : Exec w (commitPartition g n true qp) tr w' (.ret rp)) : CommitAnswered w tr w' g n qp rp := by
  unfold commitPartition at h
  rw [if_pos rfl] at h
  obtain ⟨t1, w1, r1, w2, t2, h1, s1, h2, rfl⟩ := exec_act_ret h
  have s1' := s1
  obtain ⟨_, rfl, hr⟩ := s1
  cases r1 with
  | false =>
    obtain ⟨e, h3⟩ := exec_ret_inv h2
    cases e
    refine ⟨rfl, .inr rfl, ⟨t1, _, w2, rfl, h1.1, .cons _ s1' h3.1, ?_⟩, ?_⟩
    · constructor
      · intro e; cases e
      · intro hp
        have : w2.ds.getPartition n qp.partitionIndex = true := hp
        rw [← hr] at this; cases this
    · intro e; cases e
  | true =>
    rw [if_pos rfl] at h2
    obtain ⟨t3, w3, r3, w4, t4, h3, s3, h4, rfl⟩ := exec_act_ret h2
    obtain ⟨e, h5⟩ := exec_ret_inv h4
    cases e
    have hp : w2.hasPartition n qp.partitionIndex := hr.symm
    refine ⟨rfl, .inl rfl, ⟨t1, _, w2, rfl, h1.1, .cons _ s1' (h3.1.append (.cons ⟨true, _, _⟩ s3 h5.1)), ?_⟩, fun _ => ?_⟩
    · exact ⟨fun _ => hp, fun _ => rfl⟩
    · refine ⟨t1 ++ ⟨true, _, _⟩ :: (t3 ++ [⟨true, _, r3⟩]), t4, w4, by simp, h1.1.append (.cons _ s1' (h3.1.append (.cons _ s3 (.nil _)))), h5.1, ?_⟩
      show _ ≤ (w4.committed _ _ _).toInt
      rw [step_committed s3]
      simp only [Act.effect, Option.toList, Spec.committedFrom, and_self, if_true]
      exact Int.le_max_right _ _

/-- C25: OffsetCommit, interleaved with anything, answers the requested topics in request order and in each the requested partitions in
request order, each as described by `CommitAnswered`. -/
theorem C25_commit_answers {q : CommitRequest} {resp : CommitResponse} {w w' : World} {tr : List Ev}
    (h : Exec w (offsetCommit q) tr w' (.ret resp)) :
    List.Forall₂ (fun (qt : CommitTopic) (rt : CommitRespTopic) => rt.name = qt.name ∧
      List.Forall₂ (CommitAnswered w tr w' q.groupId qt.name) qt.partitions rt.partitions) q.topics resp.topics := by
  obtain ⟨ts, h0, rfl⟩ := exec_map_ret h
  refine List.Forall₂.imp ?_ (forEach_ret h0)
  rintro qt rt ⟨t0, t, t1, wa, wb, rfl, ha, hx, hb⟩
  obtain ⟨t2, w1, kt, w2, t3, h1, s1, h2, rfl⟩ := exec_act_ret hx
  obtain ⟨ps, h3, rfl⟩ := exec_map_ret h2
  refine ⟨rfl, ?_⟩
  dsimp only
  refine List.Forall₂.imp ?_ (forEach_ret h3)
  rintro qp rp ⟨t4, t5, t6, wc, wd, rfl, hc, hy, hd⟩
  have s1' := s1
  obtain ⟨rfl, hkt⟩ := s1
  have pre : Steps wa (t2 ++ ⟨true, .getTopic qt.name, kt⟩ :: t4) wc := h1.1.append (.cons ⟨true, _, _⟩ s1' hc)
  have key : CommitAnswered wa (t2 ++ ⟨true, .getTopic qt.name, kt⟩ :: (t4 ++ t5 ++ t6)) wb q.groupId qt.name qp rp := by
    cases kt with
    | true =>
      have := (commitPartition_ret hy).lift pre hd
      simpa using this
    | false =>
      obtain ⟨e, h6⟩ := exec_ret_inv hy
      cases e
      refine ⟨rfl, .inr rfl, ⟨t2, _, w2, rfl, h1.1, .cons _ s1' ((hc.append h6.1).append hd), ?_⟩, fun e => by cases e⟩
      constructor
      · intro e; cases e
      · intro hp
        have : w2.ds.getTopic qt.name = true := hp.hasTopic
        rw [← hkt] at this; cases this
  exact key.lift ha hb

/-- OffsetCommit never crashes. -/
theorem C25_commit_never_panics {q : CommitRequest} {w w' : World} {tr : List Ev} : ¬ Exec w (offsetCommit q) tr w' .panic := by
  intro h
  obtain ⟨qt, _, t0, t, wa, _, hx⟩ := forEach_panic (exec_map_panic h)
  obtain ⟨t2, w1, kt, w2, t3, h1, s1, h2, rfl⟩ := exec_act_panic hx
  obtain ⟨qp, _, t4, t5, wc, _, hy⟩ := forEach_panic (exec_map_panic h2)
  unfold commitPartition at hy
  cases kt with
  | false => exact exec_ret_panic hy
  | true =>
    rw [if_pos rfl] at hy
    obtain ⟨t6, w6, r6, w7, t7, h7, s7, h8, rfl⟩ := exec_act_panic hy
    cases r6 with
    | false => exact exec_ret_panic h8
    | true =>
      rw [if_pos rfl] at h8
      obtain ⟨t6, w6, r6, w7, t7, h7, s7, h9, rfl⟩ := exec_act_panic h8
      exact exec_ret_panic h9

/-- Example: one existing and one unknown partition, and one unknown topic, while another goroutine posts. -/
example : ∃ tr w', Exec exWorld (offsetCommit ⟨[103], 0, [], 0, [⟨[116], [⟨0, 9, none⟩, ⟨5, 1, none⟩]⟩, ⟨[117], [⟨0, 1, none⟩]⟩]⟩) tr w'
    (.ret ⟨[⟨[116], [⟨0, 0⟩, ⟨5, 3⟩]⟩, ⟨[117], [⟨0, 3⟩]⟩]⟩) ∧ w'.committed [116] 0 [103] = 9 :=
  ⟨_, _, Prog.run_ret (sch := [.own, .own, .env (.post [116] 0 ⟨0, 0, none, none, []⟩), .own, .own, .own]) rfl, by decide⟩

/-! ### C26 OffsetFetch reports exactly the existing requested partitions -/

/-- The partitions a request names, in order, with repetitions. -/
def OffsetFetchRequest.named (q : OffsetFetchRequest) : List (Bytes × I32) :=
  q.topics.flatMap fun t => t.partitionIndexes.map fun p => (t.name, p)

/-- The partitions (in order) recorded for a topic. -/
abbrev FlagList := List ((Bytes × I32) × Bool)

/-- The flags tell, for some moment of the run, whether the partition exists. -/
def FlagsTrue (w : World) (tr : List Ev) (w' : World) (fl : FlagList) : Prop :=
  ∀ x ∈ fl, Moment w tr w' fun wm => x.2 = true ↔ wm.hasPartition x.1.1 x.1.2

theorem FlagsTrue.lift {w wa wb w' : World} {t0 t t1 : List Ev} {fl : FlagList} (h0 : Steps w t0 wa) (h1 : Steps wb t1 w') (h : FlagsTrue wa t wb fl) :
    FlagsTrue w (t0 ++ t ++ t1) w' fl := fun x hx => (h x hx).lift h0 h1

/-- The partitions flagged as existing, of one topic, in order. -/
def flagged (fl : FlagList) (n : Bytes) : List (Bytes × I32) := (fl.filter fun x => x.2 && decide (x.1.1 = n)).map (·.1)

theorem flagged_append (a b : FlagList) (n : Bytes) : flagged (a ++ b) n = flagged a n ++ flagged b n := by simp [flagged]

theorem get_addPartition (data : List (Bytes × List (Bytes × I32))) (name : Bytes) (pi : I32) (n : Bytes) :
    (GoMap.get (addPartition data name pi) n).getD [] = (GoMap.get data n).getD [] ++ if name = n then [(name, pi)] else [] := by
  unfold addPartition
  rw [GoMap.get_set]
  split
  · next e => subst e; rfl
  · simp

theorem keys_addPartition (data : List (Bytes × List (Bytes × I32))) (name : Bytes) (pi : I32) (n : Bytes) :
    n ∈ GoMap.keys (addPartition data name pi) ↔ n ∈ GoMap.keys data ∨ n = name := by
  rw [GoMap.mem_keys_iff, GoMap.mem_keys_iff]
  unfold addPartition
  rw [GoMap.get_set]
  split
  · next e => subst e; simp
  · next e => simp; intro e2; exact absurd e2.symm e

/-- The state of the local map: for each topic the flagged partitions, in order; keys are the topics with at least one. -/
def DataIs (data : List (Bytes × List (Bytes × I32))) (fl : FlagList) : Prop :=
  (GoMap.keys data).Nodup ∧ (∀ n, (GoMap.get data n).getD [] = flagged fl n) ∧ ∀ n, n ∈ GoMap.keys data ↔ flagged fl n ≠ []

theorem offsetFetchPartitions_ret {name : Bytes} {ps : List I32} {data data' : List (Bytes × List (Bytes × I32))} {fl : FlagList} {w w' : World} {tr : List Ev}
    (h : Exec w (offsetFetchPartitions name ps data) tr w' (.ret data')) (hd : DataIs data fl) :
    ∃ fl', fl'.map (·.1) = ps.map (fun p => (name, p)) ∧ FlagsTrue w tr w' fl' ∧ DataIs data' (fl ++ fl') := by
  induction ps generalizing w tr data fl with
  | nil =>
    obtain ⟨e, h1⟩ := exec_ret_inv h
    cases e
    exact ⟨[], rfl, (by intro x hx; cases hx), by simpa using hd⟩
  | cons p ps ih =>
    obtain ⟨t1, w1, r, w2, t2, h1, s1, h2, rfl⟩ := exec_act_ret h
    have s1' := s1
    obtain ⟨hn, rfl, hr⟩ := s1
    have hstep : Steps w2 [⟨true, .getPartition name p, r⟩] w2 := .cons _ s1' (.nil _)
    have hd' : DataIs (if r = true then addPartition data name p else data) (fl ++ [((name, p), r)]) := by
      cases r with
      | false =>
        refine ⟨hd.1, fun n => ?_, fun n => ?_⟩
        · rw [flagged_append]; simp only [Bool.false_eq_true, if_false]; rw [hd.2.1 n]; simp [flagged]
        · rw [flagged_append]; simp only [Bool.false_eq_true, if_false]; rw [hd.2.2 n]; simp [flagged]
      | true =>
        simp only [if_true]
        refine ⟨?_, fun n => ?_, fun n => ?_⟩
        · exact GoMap.nodup_set hd.1 _ _
        · rw [flagged_append, get_addPartition, hd.2.1 n]
          by_cases e : name = n <;> simp [flagged, e]
        · rw [flagged_append, keys_addPartition, hd.2.2 n]
          by_cases e : name = n
          · simp [flagged, e]
          · have e' : ¬ n = name := fun h => e h.symm
            simp [flagged, e, e']
    obtain ⟨fl', e1, e2, e3⟩ := ih h2 hd'
    refine ⟨((name, p), r) :: fl', by simp [e1], ?_, by simpa using e3⟩
    intro x hx
    rcases List.mem_cons.1 hx with rfl | hx
    · refine ⟨t1, _, w2, rfl, h1.1, hstep.append h2.steps, ?_⟩
      show r = true ↔ w2.hasPartition name p
      rw [hr]; exact Iff.rfl
    · have := (e2 x hx).lift (h1.1.append hstep) (Steps.nil w')
      simpa using this

theorem offsetFetchTopics_ret {ts : List OffsetFetchTopic} {data data' : List (Bytes × List (Bytes × I32))} {fl : FlagList} {w w' : World} {tr : List Ev}
    (h : Exec w (offsetFetchTopics ts data) tr w' (.ret data')) (hd : DataIs data fl) :
    ∃ fl', fl'.map (·.1) = (ts.flatMap fun t => t.partitionIndexes.map fun p => (t.name, p)) ∧ FlagsTrue w tr w' fl' ∧ DataIs data' (fl ++ fl') := by
  induction ts generalizing w tr data fl with
  | nil =>
    obtain ⟨e, h1⟩ := exec_ret_inv h
    cases e
    exact ⟨[], rfl, (by intro x hx; cases hx), by simpa using hd⟩
  | cons t ts ih =>
    obtain ⟨t1, w1, r, w2, t2, h1, s1, h2, rfl⟩ := exec_act_ret h
    have s1' := s1
    obtain ⟨rfl, hr⟩ := s1
    have hstep : Steps w2 [⟨true, .getTopic t.name, r⟩] w2 := .cons _ s1' (.nil _)
    cases r with
    | true =>
      rw [if_pos rfl] at h2
      obtain ⟨t3, t4, w3, d1, h3, h4, rfl⟩ := exec_bind_ret h2
      obtain ⟨f1, e1, e2, e3⟩ := offsetFetchPartitions_ret h3 hd
      obtain ⟨f2, e4, e5, e6⟩ := ih h4 e3
      refine ⟨f1 ++ f2, by simp [e1, e4], ?_, by simpa using e6⟩
      intro x hx
      rcases List.mem_append.1 hx with hx | hx
      · have := (e2 x hx).lift (h1.1.append hstep) h4.steps
        simpa using this
      · have := (e5 x hx).lift ((h1.1.append hstep).append h3.steps) (.nil w')
        simpa using this
    | false =>
      obtain ⟨f2, e4, e5, e6⟩ := ih h2 (fl := fl ++ t.partitionIndexes.map fun p => ((t.name, p), false)) (by
        refine ⟨hd.1, fun n => ?_, fun n => ?_⟩
        · rw [flagged_append, hd.2.1 n]; simp [flagged, List.filter_map, Function.comp_def]
        · rw [flagged_append, hd.2.2 n]; simp [flagged, List.filter_map, Function.comp_def])
      refine ⟨(t.partitionIndexes.map fun p => ((t.name, p), false)) ++ f2, by simp [e4], ?_, by simpa using e6⟩
      intro x hx
      rcases List.mem_append.1 hx with hx | hx
      · obtain ⟨p, _, rfl⟩ := List.mem_map.1 hx
        refine ⟨t1, _, w2, rfl, h1.1, hstep.append h2.steps, ?_⟩
        constructor
        · intro e; cases e
        · intro hp
          have : w2.ds.getTopic t.name = true := hp.hasTopic
          rw [← hr] at this; cases this
      · have := (e5 x hx).lift (h1.1.append hstep) (.nil w')
        simpa using this

/-- One entry of the response: the partition's number, no error, no metadata, and the group's committed offset at some moment of the call. -/
def OffsetReported (w : World) (tr : List Ev) (w' : World) (group : Bytes) (x : Bytes × I32) (rp : OffsetFetchRespPartition) : Prop :=
  rp.partitionIndex = x.2 ∧ rp.errorCode = 0 ∧ rp.metadata = none ∧ Moment w tr w' fun wm => rp.committedOffset = wm.committed x.1 x.2 group

theorem OffsetReported.lift {w wa wb w' : World} {t0 t t1 : List Ev} {g : Bytes} {x : Bytes × I32} {rp : OffsetFetchRespPartition} (h0 : Steps w t0 wa) (h1 : Steps wb t1 w')
    (h : OffsetReported wa t wb g x rp) : OffsetReported w (t0 ++ t ++ t1) w' g x rp := ⟨h.1, h.2.1, h.2.2.1, h.2.2.2.lift h0 h1⟩

theorem offsetFetchEntry_ret {g : Bytes} {x : Bytes × I32} {rp : OffsetFetchRespPartition} {w w' : World} {tr : List Ev} (hw : w.WF)
    (h : Exec w (offsetFetchEntry g x) tr w' (.ret rp)) : OffsetReported w tr w' g x rp := by
  obtain ⟨t1, w1, r1, w2, t2, h1, s1, h2, rfl⟩ := exec_act_ret h
  obtain ⟨t3, w3, r3, w4, t4, h3, s3, h4, rfl⟩ := exec_act_ret h2
  obtain ⟨e, h5⟩ := exec_ret_inv h4
  cases e
  have s3' := s3
  obtain ⟨kp, hk, rfl, rfl⟩ := s3
  have hw3 := (h1.1.append (.cons ⟨true, _, r1⟩ s1 h3.1)).wf hw
  obtain ⟨i1, i2, i3⟩ := hw3 _ _ _ hk
  refine ⟨i1, i2, i3, t1, _, w1, rfl, h1.1, .cons _ s1 (h3.1.append (.cons ⟨true, _, _⟩ s3' h5.1)), ?_⟩
  obtain ⟨kp1, hk1, rfl, _⟩ := s1
  simp only [World.committed, hk1, Option.bind_some]; rfl

/-- C26, contents: from any world reachable by a fresh mock, OffsetFetch, interleaved with anything and whatever order its map is
iterated in, answers: every requested (topic, partition) gets a flag telling whether it existed at some moment of the call; the
response has each topic with a flagged partition exactly once and no others, and in it exactly its flagged partitions, in request order,
once per occurrence in the request, with the committed offset. -/
theorem C26_offset_fetch_exact {q : OffsetFetchRequest} {resp : OffsetFetchResponse} {hist : List Ev} {w w' : World} {tr : List Ev}
    (hr : ReachedBy hist w) (h : Exec w (offsetFetch q) tr w' (.ret resp)) :
    ∃ fl : List ((Bytes × I32) × Bool),
      fl.map (·.1) = OffsetFetchRequest.named q ∧
      (∀ x ∈ fl, Moment w tr w' fun wm => x.2 = true ↔ wm.hasPartition x.1.1 x.1.2) ∧
      (resp.topics.map (·.name)).Nodup ∧
      (∀ n, n ∈ resp.topics.map (·.name) ↔ ∃ x ∈ fl, x.2 = true ∧ x.1.1 = n) ∧
      ∀ rt ∈ resp.topics, List.Forall₂ (OffsetReported w tr w' q.groupId)
        ((fl.filter fun x => x.2 && decide (x.1.1 = rt.name)).map (·.1)) rt.partitions := by
  obtain ⟨t1, t2, w1, data, h1, h2, rfl⟩ := exec_bind_ret h
  obtain ⟨fl, e1, e2, e3⟩ := offsetFetchTopics_ret h1 (fl := []) ⟨by simp [GoMap.keys], by simp [flagged], by simp [flagged, GoMap.keys]⟩
  rw [List.nil_append] at e3
  obtain ⟨t3, w3, names, w4, t4, h3, s3, h4, rfl⟩ := exec_act_ret h2
  have s3' := s3
  obtain ⟨rfl, hperm⟩ := s3
  obtain ⟨ts, h5, rfl⟩ := exec_map_ret h4
  have hall := forEach_ret h5
  have hnames : ts.map (·.name) = names := by
    clear h5 hperm s3' h4 h2 h
    induction hall with
    | nil => rfl
    | @cons x y _ _ hx _ ih =>
      obtain ⟨_, _, _, _, _, _, _, hx, _⟩ := hx
      obtain ⟨ps, _, rfl⟩ := exec_map_ret hx
      rw [List.map_cons, ih]
  refine ⟨fl, e1, fun x hx => ?_, ?_, ?_, ?_⟩
  · have := (e2 x hx).lift (.nil w) h2.steps
    simpa using this
  · rw [hnames]; exact hperm.nodup_iff.2 e3.1
  · intro n
    rw [hnames, hperm.mem_iff, e3.2.2 n]
    unfold flagged
    rw [ne_eq, List.map_eq_nil_iff, List.filter_eq_nil_iff]
    simp only [Bool.and_eq_true, decide_eq_true_eq, not_forall, not_not]
    constructor
    · rintro ⟨x, hx, h6, h7⟩; exact ⟨x, hx, h6, h7⟩
    · rintro ⟨x, hx, h6, h7⟩; exact ⟨x, hx, h6, h7⟩
  · intro rt hrt
    obtain ⟨i, hi, rfl⟩ := List.mem_iff_getElem.1 hrt
    have hl := hall.length_eq
    have hget := List.forall₂_iff_get.1 hall
    have hi' : i < ts.length := hi
    obtain ⟨t5, t6, t7, wa, wb, rfl, ha, hx, hb⟩ := hget.2 i (by omega) hi'
    obtain ⟨ps, h6, e⟩ := exec_map_ret hx
    simp only [List.get_eq_getElem] at e
    rw [e]
    dsimp only
    show List.Forall₂ _ (flagged fl _) ps
    rw [← e3.2.1]
    refine List.Forall₂.imp ?_ (forEach_ret h6)
    rintro x rp ⟨t8, t9, t10, wc, wd, rfl, hc, hy, hd⟩
    have hw : wc.WF := hc.wf (ha.wf (s3'.1 ▸ h3.1.wf (h1.steps.wf hr.wf)))
    have := ((offsetFetchEntry_ret hw hy).lift hc hd).lift ((h1.steps.append (h3.1.append (.cons ⟨true, _, _⟩ s3' (.nil _)))).append ha) hb
    simpa using this

/-- C26, no observable effect: at any point of an OffsetFetch, whatever any goroutines can do from now on, with whatever results, they
could do had the OffsetFetch made none of its steps, and vice versa; and logs, committed offsets and partitions are the same. -/
theorem C26_offset_fetch_unobservable {q : OffsetFetchRequest} {w w' : World} {tr : List Ev} {p' : Prog OffsetFetchResponse}
    (h : Exec w (offsetFetch q) tr w' p') :
    ∃ wx, Steps w (others tr) wx ∧
      (∀ later w2, Steps w' later w2 → ∃ wy, Steps wx later wy) ∧ (∀ later wy, Steps wx later wy → ∃ w2, Steps w' later w2) ∧
      (∀ t p, w'.log t p = wx.log t p ∧ (w'.hasPartition t p ↔ wx.hasPartition t p) ∧ ∀ g, w'.committed t p g = wx.committed t p g) := by
  have hclock : ∀ a, NoEffect a → (∀ d, a ≠ .sleep d) → (∀ d, a ≠ .tick d) → a ≠ .cancel → ∀ (r : a.Resp) w w', a.step w r w' → ObsEq w w' := by
    intro a ha hs ht hc r w w' hst
    refine obsEq_of_noEffect hst ha ?_ ?_ <;>
    cases a <;> simp only [Act.step] at hst <;> first
      | exact absurd rfl (hs _) | exact absurd rfl (ht _) | exact absurd rfl hc
      | (rw [hst]; done) | (rw [hst]; rfl) | (rw [hst.1]; done) | (rw [hst.2]; rfl) | (rw [hst.2.1]; done)
      | (obtain ⟨_, _, _, rfl⟩ := hst; rfl) | (obtain ⟨_, _, rfl, _⟩ := hst; rfl)
  have honly : (offsetFetch q).Only fun a => NoEffect a ∧ (∀ d, a ≠ .sleep d) ∧ (∀ d, a ≠ .tick d) ∧ a ≠ .cancel := by
    have ok : ∀ a : Act, NoEffect a → (match a with | .sleep _ | .tick _ | .cancel => False | _ => True) →
        NoEffect a ∧ (∀ d, a ≠ .sleep d) ∧ (∀ d, a ≠ .tick d) ∧ a ≠ .cancel := by
      intro a h1 h2
      refine ⟨h1, ?_, ?_, ?_⟩
      · rintro d rfl; exact h2
      · rintro d rfl; exact h2
      · rintro rfl; exact h2
    have h1 : ∀ name l data, (offsetFetchPartitions name l data).Only fun a => NoEffect a ∧ (∀ d, a ≠ .sleep d) ∧ (∀ d, a ≠ .tick d) ∧ a ≠ .cancel := by
      intro name l
      induction l with
      | nil => intro data; trivial
      | cons pi l ih => intro data; exact ⟨ok _ (.inl rfl) trivial, fun _ => ih _⟩
    have h2 : ∀ l data, (offsetFetchTopics l data).Only fun a => NoEffect a ∧ (∀ d, a ≠ .sleep d) ∧ (∀ d, a ≠ .tick d) ∧ a ≠ .cancel := by
      intro l
      induction l with
      | nil => intro data; trivial
      | cons rt l ih =>
        intro data
        refine ⟨ok _ (.inl rfl) trivial, fun kt => ?_⟩
        dsimp only
        split
        · exact (h1 _ _ _).bind fun _ => ih _
        · exact ih _
    refine (h2 _ _).bind fun data => ⟨ok _ (.inl rfl) trivial, fun names => ?_⟩
    refine Prog.Only.map _ (Prog.Only.forEach _ fun name => Prog.Only.map _ (Prog.Only.forEach _ fun x => ?_))
    exact ⟨ok _ (.inr ⟨_, _, _, rfl⟩) trivial, fun _ => ⟨ok _ (.inl rfl) trivial, fun _ => trivial⟩⟩
  have ho := (h.only honly).2
  have key : ∀ {w w' : World} {tr : List Ev}, Steps w tr w' → (∀ e ∈ tr, e.mine = true → NoEffect e.act ∧ (∀ d, e.act ≠ .sleep d) ∧ (∀ d, e.act ≠ .tick d) ∧ e.act ≠ .cancel) →
      ∀ wx, ObsEq w wx → ∃ wx', Steps wx (others tr) wx' ∧ ObsEq w' wx' := by
    intro w w' tr hs
    induction hs with
    | nil => intro _ wx hx; exact ⟨wx, .nil _, hx⟩
    | cons e hst _ ih =>
      intro hall wx hx
      have ih := ih fun e he => hall e (List.mem_cons_of_mem _ he)
      obtain ⟨m, a, r⟩ := e
      cases m with
      | true =>
        obtain ⟨n1, n2, n3, n4⟩ := hall ⟨true, a, r⟩ (by simp) rfl
        exact ih wx ((hclock a n1 n2 n3 n4 r _ _ hst).symm.trans hx)
      | false =>
        obtain ⟨wy, h1, h2⟩ := hx.step hst
        obtain ⟨wz, h3, h4⟩ := ih wy h2
        exact ⟨wz, .cons ⟨false, a, r⟩ h1 h3, h4⟩
  obtain ⟨wx, h1, h2⟩ := key h.steps ho w (.refl w)
  refine ⟨wx, h1, ?_, ?_, fun t p => ⟨h2.log t p, ?_, fun g => h2.committed t p g⟩⟩
  · intro later w2 hs
    obtain ⟨wy, h3, _⟩ := h2.steps hs
    exact ⟨wy, h3⟩
  · intro later wy hs
    obtain ⟨w2, h3, _⟩ := h2.symm.steps hs
    exact ⟨w2, h3⟩
  · unfold World.hasPartition; rw [h2.partSome t p]

/-- Example: a group that never committed, a group that did, a repeated and an unknown partition, topics split over two entries. -/
example : ∃ tr w', Exec exWorld (offsetFetch ⟨[103], [⟨[116], [0, 7, 1]⟩, ⟨[117], [0]⟩, ⟨[116], [0]⟩]⟩) tr w'
    (.ret ⟨[⟨[116], [⟨0, 5, none, 0⟩, ⟨1, 0, none, 0⟩, ⟨0, 5, none, 0⟩]⟩]⟩) :=
  ⟨_, _, Prog.run_ret (sch := go 14) rfl⟩

theorem exWorld_reached : ReachedBy exRun.1 exWorld := ⟨_, (Prog.run_sound exSchedule (World.init 5000000) (simplePost [116] 0 (some [1]) (some [2]))).steps⟩

/-! ### C23 The committed offset is a function of the history -/

/-- C23: after the history `hist` from a fresh mock, every entry an OffsetFetch returns is the value the specification gives for the
history up to some moment of the call. -/
theorem C23_offset_is_history {q : OffsetFetchRequest} {resp : OffsetFetchResponse} {hist : List Ev} {w w' : World} {tr : List Ev}
    (hr : ReachedBy hist w) (h : Exec w (offsetFetch q) tr w' (.ret resp)) :
    ∀ rt ∈ resp.topics, ∀ rp ∈ rt.partitions, ∃ t0 t1, tr = t0 ++ t1 ∧
      rp.committedOffset.toInt = Spec.committed (effects (hist ++ t0)) rt.name rp.partitionIndex q.groupId := by
  intro rt hrt rp hrp
  obtain ⟨fl, e1, e2, e3, e4, e5⟩ := C26_offset_fetch_exact hr h
  have hf := e5 rt hrt
  obtain ⟨i, hi, rfl⟩ := List.mem_iff_getElem.1 hrp
  have hl := hf.length_eq
  have hx := (List.forall₂_iff_get.1 hf).2 i (by omega) hi
  obtain ⟨i1, _, _, t0, t1, wm, rfl, hs, _, hc⟩ := hx
  simp only [List.get_eq_getElem] at i1 hc
  refine ⟨t0, t1, rfl, ?_⟩
  have hmem : ∃ x ∈ fl, (x.2 && decide (x.1.1 = rt.name)) = true ∧ x.1 = ((fl.filter fun x => x.2 && decide (x.1.1 = rt.name)).map (·.1))[i] := by
    have := List.getElem_mem (l := (fl.filter fun x => x.2 && decide (x.1.1 = rt.name)).map (·.1)) (n := i) (by omega)
    obtain ⟨x, hx, hx2⟩ := List.mem_map.1 this
    obtain ⟨h1, h2⟩ := List.mem_filter.1 hx
    exact ⟨x, h1, h2, hx2⟩
  obtain ⟨x, _, hx1, hx2⟩ := hmem
  rw [← hx2] at i1 hc
  simp only [Bool.and_eq_true, decide_eq_true_eq] at hx1
  rw [hc, i1, ← hx1.2]
  exact (hr.append hs).committed _ _ _

/-- C23, the state itself: after any history, the committed offset is the specified function of the history. -/
theorem C23_state_is_history {hist : List Ev} {w : World} (hr : ReachedBy hist w) (t : Bytes) (p : I32) (g : Bytes) :
    (w.committed t p g).toInt = Spec.committed (effects hist) t p g := hr.committed t p g

/-- Example (see also the OffsetFetch example of C26): commits 3, 9, 4, a reset to 2, then a commit of 5. -/
example : Spec.committed (T := Bytes) (P := I32) (G := Bytes) (R := Record)
    [.commit [116] 0 [103] 3, .commit [116] 0 [103] 9, .commit [116] 0 [103] 4, .reset [116] 0 [103] 2, .commit [116] 0 [104] 8,
     .commit [116] 0 [103] 5] [116] 0 [103] = 5 := by decide

/-! ### C24 Commits never move a group backwards and commute -/

/-- C24: at every moment of an OffsetCommit, unless someone resets the group's offset meanwhile, every committed offset is at least what it
was. -/
theorem C24_monotone {q : CommitRequest} {w w' : World} {tr : List Ev} {p' : Prog CommitResponse} (h : Exec w (offsetCommit q) tr w' p')
    (t : Bytes) (p : I32) (g : Bytes) (hn : ∀ o, Spec.Effect.reset t p g o ∉ effects (others tr)) :
    (w.committed t p g).toInt ≤ (w'.committed t p g).toInt := by
  rw [h.steps.committed t p g]
  refine committedFrom_le ?_ _
  intro o ho
  obtain ⟨e, he, hx⟩ := List.mem_filterMap.1 ho
  by_cases hm : e.mine = true
  · rcases (h.only (offsetCommit_only q)).2 e he hm with hr | ⟨_, _, _, hr⟩
    · obtain ⟨m, a, r⟩ := e
      have hr : a.mutates = false := hr
      simp only at hx
      cases a <;> first | (cases hx; done) | (cases hr; done)
    · rw [hr] at hx; cases hx
  · refine hn o (List.mem_filterMap.2 ⟨e, List.mem_filter.2 ⟨he, by simpa using hm⟩, hx⟩)

/-- The offsets a list of requests commits for (topic, partition, group), in order. -/
def committedBy (reqs : List CommitRequest) (t : Bytes) (p : I32) (g : Bytes) : List Int :=
  reqs.flatMap fun q => if q.groupId = g then q.topics.flatMap fun qt => if qt.name = t then
    (qt.partitions.filter fun qp => qp.partitionIndex = p).map fun qp => qp.committedOffset.toInt else [] else []

/-- The environment does not touch this (topic, partition, group). -/
def Untouched (tr : List Ev) (t : Bytes) (p : I32) (g : Bytes) : Prop :=
  ∀ e ∈ others tr, ∀ o, e.act ≠ .commit t p g o ∧ e.act ≠ .setOffset t p g o

theorem Untouched.left {a b : List Ev} {t : Bytes} {p : I32} {g : Bytes} (h : Untouched (a ++ b) t p g) : Untouched a t p g := by
  intro e he; exact h e (by rw [others_append]; exact List.mem_append_left _ he)
theorem Untouched.right {a b : List Ev} {t : Bytes} {p : I32} {g : Bytes} (h : Untouched (a ++ b) t p g) : Untouched b t p g := by
  intro e he; exact h e (by rw [others_append]; exact List.mem_append_right _ he)

theorem untouched_env {tr : List Ev} {t : Bytes} {p : I32} {g : Bytes} {w w' : World} (h : EnvSteps w tr w') (hu : Untouched tr t p g) :
    w'.committed t p g = w.committed t p g := by
  have : ∀ e ∈ tr, ∀ c, Spec.committedFrom c e.act.effect.toList t p g = c := by
    intro e he c
    have := hu e (List.mem_filter.2 ⟨he, by simp [h.2 e he]⟩)
    obtain ⟨m, a, r⟩ := e
    simp only at this ⊢
    cases a <;> first | rfl | skip
    case commit t' p' g' o =>
      simp only [Act.effect, Option.toList, Spec.committedFrom]
      rw [if_neg]
      rintro ⟨rfl, rfl, rfl⟩; exact (this o).1 rfl
    case setOffset t' p' g' o =>
      simp only [Act.effect, Option.toList, Spec.committedFrom]
      rw [if_neg]
      rintro ⟨rfl, rfl, rfl⟩; exact (this o).2 rfl
  have hall : ∀ c, Spec.committedFrom c (effects tr) t p g = c := by
    clear h hu
    induction tr with
    | nil => intro c; rfl
    | cons e tr ih =>
      intro c
      rw [effects_cons, Spec.committedFrom_append, this e (by simp), ih fun e he => this e (List.mem_cons_of_mem _ he)]
  have := h.1.committed t p g
  rw [hall] at this
  exact BitVec.eq_of_toInt_eq this

theorem commitPartition_fold {grp n : Bytes} {qp : CommitPartition} {rp : CommitRespPartition} {w w' : World} {tr : List Ev}
    {t : Bytes} {p : I32} {g : Bytes} {kt : Bool} (hkt : n = t → kt = true)
    (h : Exec w (commitPartition grp n kt qp) tr w' (.ret rp)) (hu : Untouched tr t p g) (hp : w.hasPartition t p) :
    (w'.committed t p g).toInt = (if grp = g ∧ n = t ∧ qp.partitionIndex = p then [qp.committedOffset.toInt] else []).foldl max (w.committed t p g).toInt := by
  unfold commitPartition at h
  cases kt with
  | false =>
    obtain ⟨_, h1⟩ := exec_ret_inv h
    rw [untouched_env h1 hu, if_neg]
    · rfl
    · rintro ⟨_, rfl, _⟩; cases hkt rfl
  | true =>
    rw [if_pos rfl] at h
    obtain ⟨t1, w1, r1, w2, t2, h1, s1, h2, rfl⟩ := exec_act_ret h
    obtain ⟨_, rfl, hr⟩ := s1
    have c1 := untouched_env h1 hu.left
    have hu2 : Untouched t2 t p g := Untouched.right (a := [_]) hu.right
    cases r1 with
    | false =>
      obtain ⟨_, h3⟩ := exec_ret_inv h2
      rw [untouched_env h3 hu2, c1, if_neg]
      · rfl
      · rintro ⟨_, rfl, rfl⟩
        have : w2.ds.getPartition n qp.partitionIndex = true := h1.1.hasPartition hp
        rw [← hr] at this; cases this
    | true =>
      rw [if_pos rfl] at h2
      obtain ⟨t3, w3, r3, w4, t4, h3, s3, h4, rfl⟩ := exec_act_ret h2
      obtain ⟨_, h5⟩ := exec_ret_inv h4
      rw [untouched_env h5 (Untouched.right (a := [_]) hu2.right), step_committed s3, untouched_env h3 hu2.left, c1]
      simp only [Act.effect, Option.toList, Spec.committedFrom]
      by_cases e : grp = g ∧ n = t ∧ qp.partitionIndex = p
      · rw [if_pos e, if_pos ⟨e.2.1, e.2.2, e.1⟩]; rfl
      · rw [if_neg e, if_neg (fun h => e ⟨h.2.2, h.1, h.2.1⟩)]; rfl

/-- Folding a value over a sequential loop. -/
theorem forEach_fold {α β : Type} {f : α → Prog β} {xs : List α} {ys : List β} {w w' : World} {tr : List Ev} {t : Bytes} {p : I32} {g : Bytes} {L : α → List Int}
    (hf : ∀ x ∈ xs, ∀ wa wb tr y, Exec wa (f x) tr wb (.ret y) → Untouched tr t p g → wa.hasPartition t p →
      (wb.committed t p g).toInt = (L x).foldl max (wa.committed t p g).toInt)
    (h : Exec w (Prog.forEach f xs) tr w' (.ret ys)) (hu : Untouched tr t p g) (hp : w.hasPartition t p) :
    (w'.committed t p g).toInt = (xs.flatMap L).foldl max (w.committed t p g).toInt := by
  induction xs generalizing w w' tr ys with
  | nil =>
    obtain ⟨_, h1⟩ := exec_ret_inv h
    rw [untouched_env h1 hu]; rfl
  | cons x xs ih =>
    obtain ⟨t1, t2, w1, y, h1, h2, rfl⟩ := exec_bind_ret h
    obtain ⟨t3, t4, w2, ys', h3, h4, rfl⟩ := exec_bind_ret h2
    obtain ⟨_, h6⟩ := exec_ret_inv h4
    rw [untouched_env h6 hu.right.right, ih (fun x hx => hf x (List.mem_cons_of_mem _ hx)) h3 hu.right.left (h1.steps.hasPartition hp),
      hf x (by simp) _ _ _ _ h1 hu.left hp, List.flatMap_cons, List.foldl_append]

/-- C24: a sequence of OffsetCommits on an existing partition that nobody else touches sets the committed offset to the maximum of the old
value and all committed offsets. -/
theorem C24_commits_take_maximum {reqs : List CommitRequest} {rs : List CommitResponse} {w w' : World} {tr : List Ev}
    (h : Exec w (Prog.forEach offsetCommit reqs) tr w' (.ret rs)) {t : Bytes} {p : I32} {g : Bytes} (hp : w.hasPartition t p)
    (hu : Untouched tr t p g) :
    (w'.committed t p g).toInt = (committedBy reqs t p g).foldl max (w.committed t p g).toInt := by
  refine forEach_fold (fun q _ wa wb tr y hx hu hp => ?_) h hu hp
  obtain ⟨ts, hx1, rfl⟩ := exec_map_ret hx
  have := forEach_fold (t := t) (p := p) (g := g)
    (L := fun qt : CommitTopic => qt.partitions.flatMap fun qp => if q.groupId = g ∧ qt.name = t ∧ qp.partitionIndex = p then [qp.committedOffset.toInt] else [])
    (fun qt _ wa wb tr y hx hu hp => ?_) hx1 hu hp
  · rw [this]
    congr 1
    by_cases e : q.groupId = g
    · rw [if_pos e]
      congr 1; funext qt
      by_cases e2 : qt.name = t
      · rw [if_pos e2]
        induction qt.partitions with
        | nil => rfl
        | cons qp l ih =>
          rw [List.flatMap_cons, ih]
          by_cases e3 : qp.partitionIndex = p <;> simp [e, e2, e3]
      · rw [if_neg e2]; simp [e2]
    · rw [if_neg e]; simp [e]
  · obtain ⟨t1, w1, kt, w2, t2, h1, s1, h2, rfl⟩ := exec_act_ret hx
    obtain ⟨rfl, hkt⟩ := s1
    obtain ⟨ps, h3, rfl⟩ := exec_map_ret h2
    have hpa := hp
    rw [forEach_fold (fun qp _ wa wb tr y hx hu hp => commitPartition_fold ?_ hx hu hp) h3 (Untouched.right (a := [_]) hu.right) (h1.1.hasPartition hp)]
    · rw [untouched_env h1 hu.left]
    · rintro rfl
      have : w2.ds.getTopic qt.name = true := (h1.1.hasPartition hpa).hasTopic
      rw [hkt]; exact this

theorem foldl_max_le (l : List Int) (c : Int) : c ≤ l.foldl max c ∧ ∀ x ∈ l, x ≤ l.foldl max c := by
  induction l generalizing c with
  | nil => simp
  | cons a l ih =>
    obtain ⟨h1, h2⟩ := ih (max c a)
    refine ⟨by simp only [List.foldl_cons]; omega, ?_⟩
    intro x hx
    simp only [List.foldl_cons]
    rcases List.mem_cons.1 hx with rfl | hx
    · omega
    · exact h2 x hx

theorem foldl_max_mem (l : List Int) (c : Int) : l.foldl max c = c ∨ l.foldl max c ∈ l := by
  induction l generalizing c with
  | nil => exact .inl rfl
  | cons a l ih =>
    simp only [List.foldl_cons, List.mem_cons]
    rcases ih (max c a) with h | h
    · rw [h]
      rcases Int.le_total c a with hc | hc
      · right; left; exact Int.max_eq_right hc
      · left; exact Int.max_eq_left hc
    · exact .inr (.inr h)

theorem foldl_max_congr {l1 l2 : List Int} (h : ∀ x, x ∈ l1 ↔ x ∈ l2) (c : Int) : l1.foldl max c = l2.foldl max c := by
  have h1 := foldl_max_le l1 c
  have h2 := foldl_max_le l2 c
  apply Int.le_antisymm
  · rcases foldl_max_mem l1 c with e | e
    · rw [e]; exact h2.1
    · exact h2.2 _ ((h _).1 e)
  · rcases foldl_max_mem l2 c with e | e
    · rw [e]; exact h1.1
    · exact h1.2 _ ((h _).2 e)

/-- C24: two sequences of OffsetCommits from the same state, one a reordering or replay of the other (the same offsets are committed for
the group, in any order, any number of times), end with the same committed offset. -/
theorem C24_commits_commute {reqs1 reqs2 : List CommitRequest} {rs1 rs2 : List CommitResponse} {w w1 w2 : World} {tr1 tr2 : List Ev}
    (h1 : Exec w (Prog.forEach offsetCommit reqs1) tr1 w1 (.ret rs1)) (h2 : Exec w (Prog.forEach offsetCommit reqs2) tr2 w2 (.ret rs2))
    {t : Bytes} {p : I32} {g : Bytes} (hp : w.hasPartition t p) (hu1 : Untouched tr1 t p g) (hu2 : Untouched tr2 t p g)
    (same : ∀ o, o ∈ committedBy reqs1 t p g ↔ o ∈ committedBy reqs2 t p g) : w1.committed t p g = w2.committed t p g := by
  refine BitVec.eq_of_toInt_eq ?_
  rw [C24_commits_take_maximum h1 hp hu1, C24_commits_take_maximum h2 hp hu2, foldl_max_congr same]

/-- Example: commits of 9 and 7, in this order and with replay in the other. -/
def exCommit (o : I64) : CommitRequest := ⟨[103], 0, [], 0, [⟨[116], [⟨0, o, none⟩]⟩]⟩
example : ∃ tr w' rs, Exec exWorld (Prog.forEach offsetCommit [exCommit 9, exCommit 7]) tr w' (.ret rs) ∧ w'.committed [116] 0 [103] = 9 :=
  ⟨_, _, _, Prog.run_ret (sch := go 6) rfl, by decide⟩
example : ∃ tr w' rs, Exec exWorld (Prog.forEach offsetCommit [exCommit 7, exCommit 9, exCommit 7]) tr w' (.ret rs) ∧ w'.committed [116] 0 [103] = 9 :=
  ⟨_, _, _, Prog.run_ret (sch := go 9) rfl, by decide⟩
example : (∀ o, o ∈ committedBy [exCommit 9, exCommit 7] [116] 0 [103] ↔ o ∈ committedBy [exCommit 7, exCommit 9, exCommit 7] [116] 0 [103]) := by
  have h1 : committedBy [exCommit 9, exCommit 7] [116] 0 [103] = [9, 7] := by decide
  have h2 : committedBy [exCommit 7, exCommit 9, exCommit 7] [116] 0 [103] = [7, 9, 7] := by decide
  intro o; rw [h1, h2]; simp; omega

/-! ### C27 Read your commits -/

theorem forall₂_getElem? {α β : Type} {R : α → β → Prop} {as : List α} {bs : List β} (h : List.Forall₂ R as bs) {i : Nat} {a : α} {b : β}
    (ha : as[i]? = some a) (hb : bs[i]? = some b) : R a b := by
  obtain ⟨h1, rfl⟩ := List.getElem?_eq_some_iff.1 ha
  obtain ⟨h2, rfl⟩ := List.getElem?_eq_some_iff.1 hb
  exact (List.forall₂_iff_get.1 h).2 i h1 h2

/-- C27: an OffsetCommit was acknowledged without error for (topic, partition); later (`tr2`: anything may happen) an OffsetFetch for the
same group, from any client, asks for it; nobody resets that offset from the start of the commit to the end of the fetch. Then
the OffsetFetch has an entry for the partition, and every such entry is at least the committed offset. -/
theorem C27_read_your_commits {q : CommitRequest} {resp : CommitResponse} {q2 : OffsetFetchRequest} {resp2 : OffsetFetchResponse}
    {hist : List Ev} {w w1 w2 w3 : World} {tr1 tr2 tr3 : List Ev} (hr : ReachedBy hist w)
    (h1 : Exec w (offsetCommit q) tr1 w1 (.ret resp)) (h2 : Steps w1 tr2 w2) (h3 : Exec w2 (offsetFetch q2) tr3 w3 (.ret resp2))
    (hg : q2.groupId = q.groupId)
    {i j : Nat} {qt : CommitTopic} {rt : CommitRespTopic} {qp : CommitPartition} {rp : CommitRespPartition}
    (hqt : q.topics[i]? = some qt) (hrt : resp.topics[i]? = some rt) (hqp : qt.partitions[j]? = some qp) (hrp : rt.partitions[j]? = some rp)
    (ack : rp.errorCode = 0)
    (asked : ∃ x ∈ q2.topics, x.name = qt.name ∧ qp.partitionIndex ∈ x.partitionIndexes)
    (noReset : ∀ o, Spec.Effect.reset qt.name qp.partitionIndex q.groupId o ∉ effects (tr1 ++ tr2 ++ tr3)) :
    (∃ x ∈ resp2.topics, x.name = qt.name ∧ ∃ y ∈ x.partitions, y.partitionIndex = qp.partitionIndex) ∧
    ∀ x ∈ resp2.topics, x.name = qt.name → ∀ y ∈ x.partitions, y.partitionIndex = qp.partitionIndex →
      qp.committedOffset.toInt ≤ y.committedOffset.toInt := by
  have hF := C25_commit_answers h1
  have hT := forall₂_getElem? hF hqt hrt
  obtain ⟨_, _, hex, hge⟩ := forall₂_getElem? hT.2 hqp hrp
  have hr2 : ReachedBy (hist ++ tr1 ++ tr2) w2 := (hr.append h1.steps).append h2
  -- the partition exists from the time of the acknowledgement
  have hpart : w1.hasPartition qt.name qp.partitionIndex := by
    obtain ⟨t0, t1, wm, _, _, hs, hiff⟩ := hex
    exact hs.hasPartition (hiff.1 ack)
  have hpart2 := h2.hasPartition hpart
  obtain ⟨fl, f1, f2, f3, f4, f5⟩ := C26_offset_fetch_exact hr2 h3
  -- every moment of the fetch sees at least the offset
  have hmono : ∀ wm t0 t1, tr3 = t0 ++ t1 → Steps w2 t0 wm → qp.committedOffset.toInt ≤ (wm.committed qt.name qp.partitionIndex q.groupId).toInt := by
    intro wm t0 t1 e hs
    obtain ⟨ta, tb, wn, e2, _, hb, hle⟩ := hge ack
    have hsteps : Steps wn (tb ++ tr2 ++ t0) wm := (hb.append h2).append hs
    refine Int.le_trans hle ?_
    rw [hsteps.committed]
    refine committedFrom_le ?_ _
    intro o ho
    refine noReset o ?_
    rw [e2, e]
    simp only [effects_append, List.mem_append] at ho ⊢
    rcases ho with (ho | ho) | ho
    · exact .inl (.inl (.inr ho))
    · exact .inl (.inr ho)
    · exact .inr (.inl ho)
  have hflag : ((qt.name, qp.partitionIndex), true) ∈ fl := by
    obtain ⟨x, hx, hxn, hxp⟩ := asked
    have : (qt.name, qp.partitionIndex) ∈ OffsetFetchRequest.named q2 := by
      unfold OffsetFetchRequest.named
      rw [List.mem_flatMap]
      exact ⟨x, hx, List.mem_map.2 ⟨_, hxp, by rw [hxn]⟩⟩
    rw [← f1] at this
    obtain ⟨⟨y, b⟩, hy, e⟩ := List.mem_map.1 this
    simp only at e
    subst e
    obtain ⟨t0, t1, wm, _, hs, _, hiff⟩ := f2 _ hy
    have : b = true := hiff.2 (hs.hasPartition hpart2)
    subst this; exact hy
  constructor
  · have hn := (f4 qt.name).2 ⟨_, hflag, rfl, rfl⟩
    obtain ⟨x, hx, hxn⟩ := List.mem_map.1 hn
    refine ⟨x, hx, hxn, ?_⟩
    have hfx := f5 x hx
    have hm : (qt.name, qp.partitionIndex) ∈ (fl.filter fun y => y.2 && decide (y.1.1 = x.name)).map (·.1) :=
      List.mem_map.2 ⟨_, List.mem_filter.2 ⟨hflag, by simp [hxn]⟩, rfl⟩
    obtain ⟨k, hk, e⟩ := List.mem_iff_getElem.1 hm
    have hl := hfx.length_eq
    have := (List.forall₂_iff_get.1 hfx).2 k hk (by omega)
    refine ⟨x.partitions[k]'(by omega), List.getElem_mem _, ?_⟩
    have h5 := this.1
    simp only [List.get_eq_getElem] at h5
    rw [h5, e]
  · intro x hx hxn y hy hyp
    have hfx := f5 x hx
    obtain ⟨k, hk, rfl⟩ := List.mem_iff_getElem.1 hy
    have hl := hfx.length_eq
    have hrep := (List.forall₂_iff_get.1 hfx).2 k (by omega) hk
    have hm := List.getElem_mem (l := (fl.filter fun y => y.2 && decide (y.1.1 = x.name)).map (·.1)) (n := k) (by omega)
    obtain ⟨z, hz, hz2⟩ := List.mem_map.1 hm
    obtain ⟨_, hz3⟩ := List.mem_filter.1 hz
    simp only [Bool.and_eq_true, decide_eq_true_eq] at hz3
    obtain ⟨r1, _, _, t0, t1, wm, e, hs, _, hc⟩ := hrep
    simp only [List.get_eq_getElem] at r1 hc
    rw [← hz2] at r1 hc
    rw [hc, hz3.2, hxn, ← r1, hyp, hg]
    exact hmono wm t0 t1 e hs

/-- Example: the commit of 9 of C25's example followed by a fetch. -/
example : ∃ tr1 w1 tr3 w3, Exec exWorld (offsetCommit (exCommit 9)) tr1 w1 (.ret ⟨[⟨[116], [⟨0, 0⟩]⟩]⟩) ∧
    Exec w1 (offsetFetch ⟨[103], [⟨[116], [0]⟩]⟩) tr3 w3 (.ret ⟨[⟨[116], [⟨0, 9, none, 0⟩]⟩]⟩) :=
  ⟨_, _, _, _, Prog.run_ret (sch := go 3) rfl, Prog.run_ret (sch := go 5) rfl⟩

end KM.Props
