import Verif.Props.Missing
/-
C101: what a member said when it joined does not matter.
-/
namespace KM.Props
open KM Spec

/-- The metadata with which a member of a group of type "consumer" joins: the topics it wants (ConsumerProtocolSubscription of the Kafka protocol, version 0). -/
def _root_.KM.Spec.subscription (topics : List Bytes) : Bytes := int16 0 ++ array str topics ++ nullableBytes none

def roundRobin : Bytes := lit ['r', 'o', 'u', 'n', 'd', 'r', 'o', 'b', 'i', 'n']

/-- **C101**, partial: the protocol that JoinGroup chooses is one of those the member offered, exactly if the member offered `roundrobin`. Missing for the full statement: that it
always is, which is false, `C101_false`. -/
theorem C101_protocol_partial {sv : Server} {clock : Int} {k : Nat} {g m pt : Bytes} {st rt c : I32} {ps : List (Bytes × Bytes)} {t1 tr : List SEv} {s1 s2 : Sys}
    (h : Exchange sv clock k (.joinGroup g st rt m pt ps) c t1 s1 tr s2) :
    ∃ x, Client.response Client.joinGroup (sent (actsOf k tr)) = some ((c, x), []) ∧ x.errorCode = 0 ∧
      (x.protocolName ∈ ps.map Prod.fst ↔ roundRobin ∈ ps.map Prod.fst) :=
  ⟨_, C79_join_partial h, rfl, Iff.rfl⟩

/-- **C101**, partial: a member that wants the topics `wanted` is assigned partitions of these only, if no other topic exists; if another one exists all the time, the member
is assigned that too. -/
theorem C101_assigned_partial {sv : Server} {clock : Int} {k : Nat} {g m : Bytes} {gen c : I32} {t1 tr : List SEv} {s1 s2 : Sys} (wanted : List Bytes)
    (h : Exchange sv clock k (.syncGroup g gen m []) c t1 s1 tr s2) (hnames : ∀ t, (s2.view 0).hasTopic t → ShortStr t)
    (hl : (sent (actsOf k tr)).length < 2 ^ 31) :
    ∃ ts, Client.response Client.syncGroup (sent (actsOf k tr)) = some ((c, 0, 1, ts, none), []) ∧
      ((∀ t, (s2.view 0).hasTopic t → t ∈ wanted) → ∀ x ∈ ts, x.1 ∈ wanted) ∧
      ((∃ t, (s1.view 0).hasTopic t ∧ t ∉ wanted) → ∃ x ∈ ts, x.1 ∉ wanted) := by
  obtain ⟨ts, h1, h2⟩ := C59_sync_group h hnames hl
  refine ⟨ts, h1, fun hw x hx => hw _ (h2.topicsExist x hx), fun ⟨t, ht, hw⟩ => ?_⟩
  obtain ⟨x, hx, rfl⟩ := List.mem_map.1 (h2.topics t ht)
  exact ⟨x, hx, hw⟩

/-- A member joins group "g" with the protocol "range", and wants the topic "u". -/
def joinRange : Request := .joinGroup [103] 1000 1000 [] (lit ['c', 'o', 'n', 's', 'u', 'm', 'e', 'r']) [(lit ['r', 'a', 'n', 'g', 'e'], subscription [[117]])]

theorem joinRange_wf : joinRange.WellFormed := by
  unfold joinRange Request.WellFormed ShortList ShortStr
  decide

set_option synthInstance.maxSize 1000 in
/-- **C101** is false: a client joins group "g", offering the protocol "range" with a subscription to the topic "u". It is told that the protocol is "roundrobin"; and is then
assigned a partition of the topic "t". -/
theorem C101_false : ∃ (t1 t2 tj ts a : List SEv) (s1 s2 s3 s4 : Sys) (x : JoinResponse),
    Exchange ⟨9092, []⟩ 0 0 joinRange 7 t1 s1 tj s2 ∧ Sys.Run s2 a s3 ∧ Exchange ⟨9092, []⟩ 0 0 askShare 8 t2 s3 ts s4 ∧
    Client.response Client.joinGroup (sent (actsOf 0 tj)) = some ((7, x), []) ∧ x.errorCode = 0 ∧ x.protocolName = roundRobin ∧
    Client.response Client.syncGroup (sent (actsOf 0 ts)) = some ((8, 0, 1, [([116], [0])], none), []) := by
  obtain ⟨t0, h⟩ := oneRecord_run
  have e1 := exchange_of_play h 0 3 joinRange 7 joinRange_wf (by decide +kernel)
  obtain ⟨⟨r1, q1⟩, a, ha⟩ := doneWith_run h 0 3 joinRange 7 0 askShare 8
  have e2 := exchange_of_play q1 0 5 askShare 8 askShare_wf (by decide +kernel)
  exact ⟨_, _, _, _, _, _, _, _, _, _, e1, ha, e2, C79_join_partial e1, rfl, rfl, by decide +kernel⟩

/-- The hypotheses of `C101_protocol_partial` and `C101_assigned_partial` are met in `C101_false`; here is a member that offers `roundrobin`. -/
example : ∃ (t1 tr : List SEv) (s1 s2 : Sys), Exchange ⟨9092, []⟩ 0 0 (.joinGroup [103] 1000 1000 [] [99] [([114], []), (roundRobin, subscription [[116]])]) 7 t1 s1 tr s2 := by
  obtain ⟨t0, h⟩ := oneRecord_run
  exact ⟨_, _, _, _, exchange_of_play h 0 3 _ 7 (by unfold Request.WellFormed ShortList ShortStr; decide) (by decide +kernel)⟩

end KM.Props
