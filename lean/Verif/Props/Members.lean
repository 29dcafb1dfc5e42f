import Verif.Props.Missing
import Verif.Props.Moment
/-
C95: the mock does not know the members of a group.
-/
namespace KM.Props
open KM Spec

/-- **C95**, partial: nobody who is a member is refused. Heartbeat and LeaveGroup are answered without error; SyncGroup, with an assignment; OffsetCommit, without error for
every partition that exists. Missing for the full statement: that others are refused, which is false, `C95_false`. -/
theorem C95_accepted_partial {sv : Server} {clock : Int} {k : Nat} {c : I32} {t1 tr : List SEv} {s1 s2 : Sys} :
    (∀ g gen m, Exchange sv clock k (.heartbeat g gen m) c t1 s1 tr s2 → Client.response Client.errorCode (sent (actsOf k tr)) = some ((c, 0), [])) ∧
    (∀ g m, Exchange sv clock k (.leaveGroup g m) c t1 s1 tr s2 → Client.response Client.errorCode (sent (actsOf k tr)) = some ((c, 0), [])) ∧
    (∀ g gen m, Exchange sv clock k (.syncGroup g gen m []) c t1 s1 tr s2 → (∀ t, (s2.view 0).hasTopic t → ShortStr t) → (sent (actsOf k tr)).length < 2 ^ 31 →
      ∃ ts, Client.response Client.syncGroup (sent (actsOf k tr)) = some ((c, 0, 1, ts, none), [])) ∧
    (∀ q, Exchange sv clock k (.offsetCommit q) c t1 s1 tr s2 → ∃ x, Client.response Client.commit (sent (actsOf k tr)) = some ((c, x), []) ∧
      List.Forall₂ (fun (qt : CommitTopic) (rt : CommitRespTopic) => rt.name = qt.name ∧
        List.Forall₂ (fun (qp : CommitPartition) (rp : CommitRespPartition) => rp.partitionIndex = qp.partitionIndex ∧
          ((s1.view 0).hasPartition qt.name qp.partitionIndex → rp.errorCode = 0)) qt.partitions rt.partitions) q.topics x.topics) := by
  refine ⟨fun g gen m h => C79_heartbeat_partial (.inl h), fun g m h => C79_heartbeat_partial (gen := 0) (.inr h), fun g gen m h h1 h2 => ?_, fun q h => ?_⟩
  · obtain ⟨ts, h3, _⟩ := C59_sync_group h h1 h2
    exact ⟨ts, h3⟩
  · obtain ⟨x, h1, h2⟩ := C59_commit h
    refine ⟨x, h1, h2.imp fun qt rt h3 => ⟨h3.1, h3.2.imp fun qp rp h4 => ⟨h4.1, fun hp => ?_⟩⟩⟩
    rcases h4.2 with ⟨_, h5⟩ | ⟨h5, _⟩
    · exact absurd hp h5
    · exact h5

/-- Requests of a member "m" of generation 5, which never joined. -/
def askStranger : Request := .heartbeat [103] 5 [109]
def commitStranger : Request := .offsetCommit ⟨[103], 5, [109], -1, [⟨[116], [⟨0, 1, none⟩]⟩]⟩

theorem askStranger_wf : askStranger.WellFormed := by
  unfold askStranger Request.WellFormed ShortStr
  decide

theorem commitStranger_wf : commitStranger.WellFormed := by
  unfold commitStranger Request.WellFormed ShortList ShortStr
  decide

def isBegin : SEv → Bool
  | .conn _ (.reqBegin _) _ => true
  | _ => false

theorem noRequest {tr : List SEv} (h : tr.any isBegin = false) (k : Nat) (m : Bytes) : SEv.conn k (.reqBegin m) () ∉ tr := fun hm => List.any_eq_false.1 h _ hm rfl

set_option synthInstance.maxSize 1000 in
set_option maxRecDepth 100000 in
/-- C95 is false: without any request before it, so that nobody has joined a group, a Heartbeat is answered without error; and an OffsetCommit is accepted, and sets the offset of
the group. -/
theorem C95_false : (∃ (t1 tr : List SEv) (s1 s2 : Sys), Exchange ⟨9092, []⟩ 0 0 askStranger 7 t1 s1 tr s2 ∧ (∀ k m, SEv.conn k (.reqBegin m) () ∉ t1) ∧
      Client.response Client.errorCode (sent (actsOf 0 tr)) = some ((7, 0), [])) ∧
    ∃ (t1 tr : List SEv) (s1 s2 : Sys), Exchange ⟨9092, []⟩ 0 0 commitStranger 7 t1 s1 tr s2 ∧ (∀ k m, SEv.conn k (.reqBegin m) () ∉ t1) ∧
      Client.response Client.commit (sent (actsOf 0 tr)) = some ((7, ⟨[⟨[116], [⟨0, 0⟩]⟩]⟩), []) ∧
      (s1.view 0).committed [116] 0 [103] = 0 ∧ (s2.view 0).committed [116] 0 [103] = 1 := by
  have h : Sys.Run (Sys.new ⟨9092, []⟩ 0) _ oneRecord := stateAfter_run (bootAndPost ++ accepts 0) _
  exact ⟨⟨_, _, _, _, exchange_of_play h 0 3 askStranger 7 askStranger_wf (by decide +kernel), noRequest (by decide +kernel), by decide +kernel⟩,
    ⟨_, _, _, _, exchange_of_play h 0 6 commitStranger 7 commitStranger_wf (by decide +kernel), noRequest (by decide +kernel), by decide +kernel, by decide +kernel, by decide +kernel⟩⟩

/-- The hypotheses of `C95_accepted_partial`: `C79_false` has exchanges of SyncGroup; here are a Heartbeat and an OffsetCommit. -/
example : (∃ t1 tr s1 s2, Exchange ⟨9092, []⟩ 0 0 askStranger 7 t1 s1 tr s2) ∧ ∃ t1 tr s1 s2, Exchange ⟨9092, []⟩ 0 0 commitStranger 7 t1 s1 tr s2 := by
  obtain ⟨⟨t1, tr, s1, s2, h, _⟩, ⟨t1', tr', s1', s2', h', _⟩⟩ := C95_false
  exact ⟨⟨_, _, _, _, h⟩, ⟨_, _, _, _, h'⟩⟩

end KM.Props
