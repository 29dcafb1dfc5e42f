import Verif.Props.Group
import Verif.Props.Crash
/-
C81: the nodes that Metadata names are brokers that it lists. C82: a Metadata request for all topics is answered with all topics.
-/
namespace KM.Props
open KM Spec

/-- **C81**, partial: every leader that a Metadata response names is a broker of the response. -/
theorem C81_leaders_partial {topics : List Bytes} {sv : Server} {c : I32} {w w' : World} {tr : List Ev} {q : Prog DRes}
    (h : RequestRun sv (.metadata topics) c w tr w' q) :
    ∃ x, ClientReads Client.metadata tr c x ∧ ∀ t ∈ x.topics, ∀ p ∈ t.partitions, p.leaderId ∈ x.brokers.map (·.nodeId) := by
  refine ⟨_, (metadata_run h).2, fun t ht p hp => ?_⟩
  obtain ⟨n, _, rfl⟩ := List.mem_map.1 ht
  simp only [List.mem_singleton] at hp
  subst hp
  exact List.mem_cons_self

/-- **C81** is false, of every Metadata response: the controller is not a broker of the response, nor is any replica, in sync or not; and every partition has one. -/
theorem C81_false {topics : List Bytes} {sv : Server} {c : I32} {w w' : World} {tr : List Ev} {q : Prog DRes}
    (h : RequestRun sv (.metadata topics) c w tr w' q) :
    ∃ x, ClientReads Client.metadata tr c x ∧ x.controllerId ∉ x.brokers.map (·.nodeId) ∧
      ∀ t ∈ x.topics, ∀ p ∈ t.partitions, p.replicas ≠ [] ∧ p.isr ≠ [] ∧ ∀ n ∈ p.replicas ++ p.isr, n ∉ x.brokers.map (·.nodeId) := by
  refine ⟨_, (metadata_run h).2, by simp [metadataFor], fun t ht p hp => ?_⟩
  obtain ⟨n, _, rfl⟩ := List.mem_map.1 ht
  simp only [List.mem_singleton] at hp
  subst hp
  simp [metadataFor]

/-- **C82**, partial: a Metadata request that names topics is answered with these topics. -/
theorem C82_named_partial {topics : List Bytes} {sv : Server} {c : I32} {w w' : World} {tr : List Ev} {q : Prog DRes}
    (h : RequestRun sv (.metadata topics) c w tr w' q) : ∃ x, ClientReads Client.metadata tr c x ∧ x.topics.map (·.name) = topics := by
  refine ⟨_, (metadata_run h).2, ?_⟩
  show (topics.map _).map _ = topics
  rw [List.map_map]
  exact List.map_id' topics

/-- Metadata version 1 for all topics: correlation id 1, client id "c", null. -/
def allTopics : Bytes := [0, 3, 0, 1, 0, 0, 0, 1, 0, 1, 99, 255, 255, 255, 255]

/-- A record is posted to topic `t`; a client connects and asks for all topics. -/
def asksAll : List Pick := bootAndPost ++ accepts 0 ++ [.conn 0, .conn 0, .recv 0 (.data ([0, 0, 0, 15] ++ allTopics)), .conn 0, .conn 0, .conn 0]

/-- The hypothesis of `C81_leaders_partial`, `C81_false` and `C82_named_partial`. -/
example : ∃ w' tr, RequestRun ⟨9092, []⟩ (.metadata [[116], [117]]) 7 (World.init 0) tr w' (.ret .done) := by
  exact ⟨_, _, requestRun_of (by simp [Request.WellFormed, ShortStr, ShortList]) (by decide) (by decide) (Prog.run_ret (sch := go 12) rfl) (allSent_of rfl)⟩

set_option maxRecDepth 100000 in
/-- **C82** is false: a Metadata request for all topics ends the process. -/
theorem C82_false : ∃ tr s, Sys.Run (Sys.new ⟨9092, []⟩ 0) tr s ∧ s.next (.conn 0) = .crash .handler ∧
    received (actsOf 0 tr) = [0, 0, 0, 15] ++ allTopics ∧ served (actsOf 0 tr) = [allTopics] ∧ sent (actsOf 0 tr) = [] ∧ (s.view 0).hasTopic [116] := by
  refine ⟨eventsOf asksAll (Sys.new ⟨9092, []⟩ 0), stateAfter asksAll (Sys.new ⟨9092, []⟩ 0), stateAfter_run _ _, ?_, ?_, ?_, ?_, ?_⟩
  · rfl
  · rfl
  · rfl
  · rfl
  · unfold World.hasTopic; decide +kernel

end KM.Props
