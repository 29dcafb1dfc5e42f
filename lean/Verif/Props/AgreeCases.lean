import Verif.Props.Agree
import Verif.Props.TallyCases
/-
C134: after one consumer has fetched the two messages of a partition one by one, a second consumer fetches both at once.
-/
namespace KM.Props
open KM KM.Spec

/-- The run of C131, and then a second connection, on which the partition is fetched from its beginning. -/
def bothRead : List NPick := pollBoth ++ (accepts 0).map .mock ++ asksFor 1 askFetch 5 16 ++ [.receive 1 1000]

set_option maxRecDepth 100000 in
theorem bothRead_plays : (Net.play bothRead (Net.new ⟨9092, []⟩ 0)).isSome = true := by decide +kernel

def trBoth : List NEv := netEvents bothRead (Net.new ⟨9092, []⟩ 0)
def netBoth : Net := netAfter bothRead (Net.new ⟨9092, []⟩ 0)

theorem bothRead_run : Net.Run (Net.new ⟨9092, []⟩ 0) trBoth netBoth := netAfter_run _ _

set_option maxRecDepth 100000 in
theorem bothRead_asked : frames (asked 0 trBoth) = [askFetch.message 2 ownName, askNext.message 3 ownName] ∧ frames (asked 1 trBoth) = [askFetch.message 5 ownName] := by decide +kernel

set_option maxRecDepth 100000 in
theorem bothRead_small : SmallReplies ⟨9092, []⟩ (actsOf 0 (mocks trBoth)) ∧ SmallReplies ⟨9092, []⟩ (actsOf 1 (mocks trBoth)) :=
  ⟨smallReplies_check bothRead_run 0 (by decide +kernel), smallReplies_check bothRead_run 1 (by decide +kernel)⟩

/-- The response to the second consumer, with its size. -/
def bothAtOnce : Bytes := got 1 trBoth

set_option synthInstance.maxSize 1000 in
set_option maxRecDepth 100000 in
theorem bothAtOnce_read : Client.response Client.fetch bothAtOnce = some ((5, 0, [([116], [⟨0, 0, 2, [theMessage, lateMessage]⟩])]), []) := by decide +kernel

set_option maxRecDepth 100000 in
theorem bothRead_one : (Poll.mk 0 0 [theMessage]).Seen trBoth [116] 0 0 := by
  refine .mk (msg := askFetch.message 2 ownName) (r := gatheredOne.drop 4) (j := 0) (by rw [bothRead_asked.1]; rfl) (accepted_proper askFetch_wf _ ownName_short) (by unfold FitsBuffer; decide +kernel) ?_ rfl
    (by decide +kernel) (by decide +kernel) (framed_of (by decide +kernel) (by decide +kernel)) gathered_read.1 rfl rfl
  intro t ht
  simp only [List.mem_singleton] at ht
  exact ⟨_, by rw [ht]⟩

set_option maxRecDepth 100000 in
theorem bothRead_two : (Poll.mk 0 1 [lateMessage]).Seen trBoth [116] 0 1 := by
  refine .mk (msg := askNext.message 3 ownName) (r := gatheredTwo.drop 4) (j := 0) (by rw [bothRead_asked.1]; rfl) (accepted_proper askNext_wf _ ownName_short) (by unfold FitsBuffer; decide +kernel) ?_ rfl
    (by decide +kernel) (by decide +kernel) (framed_of (by decide +kernel) (by decide +kernel)) gathered_read.2 rfl rfl
  intro t ht
  simp only [List.mem_singleton] at ht
  exact ⟨_, by rw [ht]⟩

set_option maxRecDepth 100000 in
theorem bothRead_other : (Poll.mk 1 0 [theMessage, lateMessage]).Seen trBoth [116] 0 0 := by
  refine .mk (msg := askFetch.message 5 ownName) (r := bothAtOnce.drop 4) (j := 0) (by rw [bothRead_asked.2]; rfl) (accepted_proper askFetch_wf _ ownName_short) (by unfold FitsBuffer; decide +kernel) ?_ rfl
    (by decide +kernel) (by decide +kernel) (framed_of (by decide +kernel) (by decide +kernel)) bothAtOnce_read rfl rfl
  intro t ht
  simp only [List.mem_singleton] at ht
  exact ⟨_, by rw [ht]⟩

set_option maxRecDepth 100000 in
theorem bothRead_room : ∀ t p, ∀ x ∈ (netBoth.sys.view 0).log t p, wireSize x < 2 ^ 31 :=
  (roomy_of (k := 0) (tr := []) (s2 := netBoth.sys) (by decide +kernel) (by decide)).records

set_option maxRecDepth 100000 in
theorem bothRead_log : ((netBoth.sys.view 0).log [116] 0).length = 2 := by decide +kernel

theorem bothRead_all : ∀ x ∈ ([⟨0, 0, [theMessage]⟩] ++ [⟨0, 1, [lateMessage]⟩] : List Poll) ++ [⟨1, 0, [theMessage, lateMessage]⟩], SmallReplies ⟨9092, []⟩ (actsOf x.conn (mocks trBoth)) := by
  intro x hx
  simp only [List.mem_append, List.mem_singleton] at hx
  rcases hx with (rfl | rfl) | rfl
  · exact bothRead_small.1
  · exact bothRead_small.1
  · exact bothRead_small.2

/-- The hypotheses of `C134_order`: two polls of one consumer, one of the other. -/
example : List.Forall₂ SameMessage [theMessage, lateMessage] [theMessage, lateMessage] :=
  C134_order bothRead_run bothRead_room (.more (.more .none bothRead_one) bothRead_two) (.more .none bothRead_other) bothRead_all (by decide) (by rw [bothRead_log]; decide) (by decide)

/-- The hypotheses of `C134_content`: one consumer began at offset 1, the other one at offset 0. -/
example : ∀ x ∈ [lateMessage], ∀ y ∈ [theMessage, lateMessage], x.offset = y.offset → SameMessage x y :=
  C134_content bothRead_run bothRead_room (ps := [⟨0, 1, [lateMessage]⟩]) (.more .none bothRead_two) (.more .none bothRead_other) (fun x hx => bothRead_all x (by simp only [List.mem_append, List.mem_singleton] at hx ⊢; grind)) (by decide)
    (by decide) (by rw [bothRead_log]; decide) (by rw [bothRead_log]; decide)

end KM.Props
