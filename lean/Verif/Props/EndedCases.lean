import Verif.Props.Ended
import Verif.NetSim
import Verif.LifeSim
/-
A case for C115: a mock that is told to finish while it has half of a request.
-/
namespace KM.Props
open KM Spec

/-- A client sends a Heartbeat request and half of another one, the mock answers the first; FinishRequests is called and the connection winds up; the client sends the rest and receives all
there is. -/
def lastWords : List NPick := (starts 0 ++ opens 0 ++ accepts 0).map .mock ++ [.send 0 (heartbeatBytes ++ heartbeatBytes.take 9), .mock (.conn 0), .mock (.conn 0),
  .mock (.recv 0 (.data (heartbeatBytes ++ heartbeatBytes.take 9))), .mock (.conn 0)] ++ List.replicate 7 (.mock (.conn 0)) ++
  (caller 0 .finishRequests 2 ++ List.replicate 3 (Pick.conn 0)).map NPick.mock ++ [.send 0 (heartbeatBytes.drop 9), .receive 0 1000]

def lastNet : Net := netAfter lastWords (Net.new ⟨9092, []⟩ 0)
def lastTrace : List NEv := netEvents lastWords (Net.new ⟨9092, []⟩ 0)

set_option maxRecDepth 100000 in
theorem lastWords_end : EndSeen lastTrace lastNet 0 := by
  refine ⟨?_, by decide +kernel, by decide +kernel⟩
  have : (actsOf 0 (mocks lastTrace)).any (fun e => match e with | ⟨.close, _⟩ => true | _ => false) = true := by decide +kernel
  obtain ⟨⟨a, r⟩, h1, h2⟩ := List.any_eq_true.1 this
  cases a <;> first | exact h1 | cases h2

set_option maxRecDepth 100000 in
/-- The hypotheses of the theorems on C115; two requests have been sent, one has been answered and the other one has not been taken up. -/
theorem C115_example : Net.Run (Net.new ⟨9092, []⟩ 0) lastTrace lastNet ∧ SmallReplies ⟨9092, []⟩ (actsOf 0 (mocks lastTrace)) ∧ EndSeen lastTrace lastNet 0 ∧
    (∃ k, lastNet.sys.conns[0]? = some k) ∧ frames (asked 0 lastTrace) = [heartbeatBytes.drop 4, heartbeatBytes.drop 4] ∧
    got 0 lastTrace = [0, 0, 0, 6, 0, 0, 0, 7, 0, 0] ∧ Spec.served (actsOf 0 (mocks lastTrace)) = [heartbeatBytes.drop 4] := by
  have hr : Net.Run (Net.new ⟨9092, []⟩ 0) lastTrace lastNet := netAfter_run lastWords _
  refine ⟨hr, C114_small hr ⟨fun t p => ?_, by decide +kernel, by decide⟩ 0, lastWords_end, ⟨_, rfl⟩, by decide +kernel, by decide +kernel, by decide +kernel⟩
  have : (lastNet.sys.view 0).ds = [] := by decide +kernel
  unfold logBytes World.log
  rw [this]
  exact (by decide : 0 < 2 ^ 24)

end KM.Props
