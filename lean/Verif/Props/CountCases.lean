import Verif.Props.Count
import Verif.Props.DeliveredCases
import Verif.Props.TurnsCases
/-
C129: two goroutines of a test post at the same time, to the same partition; then a client asks for the end of the log.
-/
namespace KM.Props
open KM KM.Spec

def tally : List NPick := (starts 0 ++ opens 0 ++ accepts 0).map .mock ++ ((List.replicate 6 [Pick.api 1 postOne, Pick.api 2 postOne]).flatten).map .mock ++ asksFor 0 (askWhen (-1)) 7 12 ++
  [.receive 0 1000]

set_option maxRecDepth 100000 in
theorem tally_plays : (Net.play tally (Net.new ⟨9092, []⟩ 0)).isSome = true := by decide +kernel

def tallyRun : NetTimeline ⟨9092, []⟩ 0 := netCourse tally tally_plays

theorem tally_listed : Listed ⟨9092, []⟩ 0 tallyRun.st tallyRun.ev 49 := ⟨tallyRun.start, fun k hk => tallyRun.step k hk⟩

/-- Only events 20 and 21 call a function that posts. -/
def tallied (n : Net) (k : Nat) : NEv → Bool
  | .mock (.life (.api i (.simplePost ..))) | .mock (.life (.api i (.extendedPost ..))) =>
    match n.sys.api i with
    | .idle => k == 20 || k == 21
    | _ => true
  | _ => true

set_option maxRecDepth 100000 in
theorem tally_calls : ((List.range 49).all fun k => tallied (tallyRun.st k) k (tallyRun.ev k)) = true := by decide +kernel

theorem tally_all (k i : Nat) (call : PostCall) (hk : k < 49) (h : PostAt tallyRun.st tallyRun.ev [116] 0 k i call) : k ∈ [20, 21] := by
  have := List.all_eq_true.1 tally_calls k (List.mem_range.2 hk)
  rw [h.event] at this
  unfold PostCall.call at this
  split at this <;> simpa [tallied, h.idle] using this

set_option maxRecDepth 100000 in
theorem tally_posts : PostAt tallyRun.st tallyRun.ev [116] 0 20 1 firstPost ∧ PostAt tallyRun.st tallyRun.ev [116] 0 21 2 firstPost := ⟨⟨rfl, rfl, rfl, rfl⟩, ⟨rfl, rfl, rfl, rfl⟩⟩

set_option maxRecDepth 100000 in
theorem tally_returned : ReturnedBy tallyRun.st 20 1 32 ∧ ReturnedBy tallyRun.st 21 2 32 := ⟨⟨32, by decide, by decide, .inr rfl⟩, ⟨32, by decide, by decide, .inr rfl⟩⟩

theorem tally_done : ∀ k ∈ [20, 21], ∃ i call, PostAt tallyRun.st tallyRun.ev [116] 0 k i call ∧ ReturnedBy tallyRun.st k i 32 := by
  intro k hk
  rcases List.mem_cons.1 hk with rfl | hk
  · exact ⟨1, firstPost, tally_posts.1, tally_returned.1⟩
  · cases List.mem_singleton.1 hk
    exact ⟨2, firstPost, tally_posts.2, tally_returned.2⟩

set_option maxRecDepth 100000 in
theorem tally_small : SmallReplies ⟨9092, []⟩ (actsOf 0 (mocks (upTo tallyRun.ev 49))) := smallReplies_check tally_listed.run 0 (by decide +kernel)

set_option maxRecDepth 100000 in
theorem tally_asked : frames (asked 0 (upTo tallyRun.ev 32)) = [] ∧ frames (asked 0 (upTo tallyRun.ev 49)) = [(askWhen (-1)).message 7 ownName] := by decide +kernel

theorem tally_wf : (askWhen (-1)).WellFormed := by
  unfold askWhen Request.WellFormed ShortList ShortStr
  decide

theorem tally_fits : FitsBuffer (askWhen (-1)) 7 ownName := by unfold FitsBuffer; decide +kernel

def tallyReply : Bytes := got 0 (upTo tallyRun.ev 49)

set_option maxRecDepth 100000 in
theorem tally_read : Client.response Client.listOffsets tallyReply = some ((7, ⟨[⟨[116], [⟨0, 0, 0, 2⟩]⟩]⟩), []) ∧ (frames tallyReply)[0]? = some (tallyReply.drop 4) := by decide +kernel

/-- The hypotheses of `C129_count` and `C129_exact`, and what the theorem says of the run: the end of the log is 2. -/
example : ∃ b x, Framed b [tallyReply.drop 4] ∧ Client.response Client.listOffsets b = some ((7, x), []) ∧
      ∀ (a c : Nat) qt qp rt rp, ([⟨[116], [⟨0, -1⟩]⟩] : List ListOffsetsTopic)[a]? = some qt → qt.partitions[c]? = some qp → x.topics[a]? = some rt → rt.partitions[c]? = some rp →
        qt.name = [116] → qp.partitionIndex = 0 → qp.timestamp.toInt = -1 → rp.errorCode = 0 → rp.offset = BitVec.ofNat 64 2 :=
  C129_exact tally_listed (m := 32) (by decide) (d := 0) (j := 0) tally_small (by rw [tally_asked.1]; exact Nat.le_refl _) (by rw [tally_asked.2]; rfl) (accepted_proper tally_wf _ ownName_short)
    tally_fits tally_read.2 (calls := [20, 21]) (by decide) tally_all tally_done

end KM.Props
