import Verif.Props.SeekPosts
import Verif.Props.TallyCases
/-
C135: records of the times 0 and 10 are posted; a consumer asks for the offset of the time 5 and fetches from the offset that it has read.
-/
namespace KM.Props
open KM KM.Spec

/-- ExtendedPost with a timestamp of 10 ms. -/
def stamped : PostCall := ⟨[116], 0, none, some [3], some ([], 10000000)⟩

def seekPicks : List NPick := (starts 0 ++ opens 0 ++ accepts 0 ++ caller 1 postOne 6 ++ caller 1 stamped.call 6).map .mock ++ asksFor 0 (askWhen 5) 7 12 ++ [.receive 0 1000] ++
  asksFor 0 askNext 8 14 ++ [.receive 0 1000]

set_option maxRecDepth 100000 in
theorem seek_plays : (Net.play seekPicks (Net.new ⟨9092, []⟩ 0)).isSome = true := by decide +kernel

def seekRun : NetTimeline ⟨9092, []⟩ 0 := netCourse seekPicks seek_plays

theorem seek_listed : Listed ⟨9092, []⟩ 0 seekRun.st seekRun.ev 68 := ⟨seekRun.start, fun k hk => seekRun.step k hk⟩

set_option maxRecDepth 100000 in
theorem seek_asked : frames (asked 0 (upTo seekRun.ev 32)) = [] ∧ frames (asked 0 (upTo seekRun.ev 49)) = [(askWhen 5).message 7 ownName] ∧
    frames (asked 0 (upTo seekRun.ev 68)) = [(askWhen 5).message 7 ownName, askNext.message 8 ownName] := by decide +kernel

/-- The responses, with their sizes. -/
def seekTime : Bytes := got 0 (upTo seekRun.ev 49)
def seekFetched : Bytes := (got 0 (upTo seekRun.ev 68)).drop seekTime.length

/-- What the consumer receives. -/
def stampedMessage : MessageV1 := ⟨1, 35, 2648356304#32, 1, 0, 10, none, some [3]⟩

set_option maxRecDepth 100000 in
theorem seek_time : Client.response Client.listOffsets seekTime = some ((7, ⟨[⟨[116], [⟨0, 0, 0, 1⟩]⟩]⟩), []) := by decide +kernel

set_option synthInstance.maxSize 1000 in
set_option maxRecDepth 100000 in
theorem seek_fetched : Client.response Client.fetch seekFetched = some ((8, 0, [([116], [⟨0, 0, 2, [stampedMessage]⟩])]), []) := by decide +kernel

theorem seek_wf : (askWhen 5).WellFormed := by
  unfold askWhen Request.WellFormed ShortList ShortStr
  decide

theorem seek_fits : FitsBuffer (askWhen 5) 7 ownName ∧ FitsBuffer askNext 8 ownName := by unfold FitsBuffer; decide +kernel

set_option maxRecDepth 100000 in
theorem seek_read : TimeRead (upTo seekRun.ev 49) 0 0 [116] 0 5 1 :=
  .mk (msg := (askWhen 5).message 7 ownName) (r := seekTime.drop 4) (a := 0) (c := 0) (by rw [seek_asked.2.1]; rfl) (accepted_proper seek_wf _ ownName_short) seek_fits.1 (by decide +kernel)
    (framed_of (by decide +kernel) (by decide +kernel)) seek_time rfl rfl rfl rfl rfl rfl (by decide) rfl rfl

set_option maxRecDepth 100000 in
theorem seek_poll : (Poll.mk 0 1 [stampedMessage]).Seen (upTo seekRun.ev 68) [116] 0 1 := by
  refine .mk (msg := askNext.message 8 ownName) (r := seekFetched.drop 4) (j := 0) (by rw [seek_asked.2.2]; rfl) (accepted_proper askNext_wf _ ownName_short) seek_fits.2 ?_ rfl
    (by decide +kernel) (by decide +kernel) (framed_of (by decide +kernel) (by decide +kernel)) seek_fetched rfl rfl
  intro t ht
  simp only [List.mem_singleton] at ht
  exact ⟨_, by rw [ht]⟩

set_option maxRecDepth 100000 in
theorem seek_two : (upTo seekRun.ev 68).all onlyTwo = true := by decide +kernel

set_option maxRecDepth 100000 in
theorem seek_small (c : Nat) : SmallReplies ⟨9092, []⟩ (actsOf c (mocks (upTo seekRun.ev 68))) := by
  by_cases h0 : c = 0
  · subst h0; exact smallReplies_check seek_listed.run 0 (by decide +kernel)
  · by_cases h1 : c = 1
    · subst h1; exact smallReplies_check seek_listed.run 1 (by decide +kernel)
    · rw [(two_others seek_two h0 h1).2]
      intro l1 m l2 l3 c payload e
      exact absurd e (by simp)

set_option maxRecDepth 100000 in
theorem seek_room : ∀ t p, ∀ x ∈ ((seekRun.st 68).sys.view 0).log t p, wireSize x < 2 ^ 31 :=
  (roomy_of (k := 0) (tr := []) (s2 := (seekRun.st 68).sys) (by decide +kernel) (by decide)).records

set_option maxRecDepth 100000 in
theorem seek_log : (((seekRun.st 68).sys.view 0).log [116] 0).length = 2 ∧ (((seekRun.st 68).sys.view 0).log [116] 0).Pairwise fun a b => a.timestamp.toInt ≤ b.timestamp.toInt := by decide +kernel

set_option maxRecDepth 100000 in
theorem seek_posts : PostAt seekRun.st seekRun.ev [116] 0 20 1 firstPost ∧ ReturnedBy seekRun.st 20 1 26 ∧ PostAt seekRun.st seekRun.ev [116] 0 26 1 stamped ∧ ReturnedBy seekRun.st 26 1 32 :=
  ⟨⟨rfl, rfl, rfl, rfl⟩, ⟨26, by decide, by decide, .inr rfl⟩, ⟨rfl, rfl, rfl, rfl⟩, ⟨32, by decide, by decide, .inr rfl⟩⟩

set_option maxRecDepth 100000 in
/-- The hypotheses of `C135_partial` and `C135_since_partial`, and what the theorems say of the run: the message comes from the second call, event number 26. -/
example : MessageOf seekRun.st seekRun.ev 68 [116] 0 26 stampedMessage := by
  obtain ⟨ks, _, h2, h3, _⟩ := C135_partial seek_listed (m := 49) (m0 := 32) (m1 := 49) (by decide) (by decide) (by decide) seek_room seek_read (by decide) (by decide)
    (Nat.le_of_eq (congrArg List.length seek_asked.1)) (ps := []) (x := ⟨0, 1, [stampedMessage]⟩) (.more .none seek_poll) seek_small (by rw [seek_log.1]; decide)
    (Nat.le_of_eq (congrArg List.length seek_asked.2.1))
  rcases h3 26 1 stamped seek_posts.2.2.1 (by obtain ⟨j, j1, j2, j3⟩ := seek_posts.2.2.2; exact ⟨j, j1, by omega, j3⟩) with h | h
  · cases h2 with
    | cons g h2 => cases h2 with
      | nil => cases List.mem_singleton.1 h; exact g
  · exact absurd (h.2 seek_log.2) (C135_since_partial (by decide) (by decide +kernel) ⟨by decide, by decide⟩)

/-! ### Timestamps that are not in order -/

def askPast : Request := .fetch ⟨-1, -1, 1, [⟨[116], [⟨0, 2, 1000⟩]⟩]⟩

/-- The record of the time 10 is posted first, then the one of the time 0; a consumer asks for the offset of the time 5, reads 2 and fetches from there. -/
def mixPicks : List NPick := (starts 0 ++ opens 0 ++ accepts 0 ++ caller 1 stamped.call 6 ++ caller 1 postOne 6).map .mock ++ asksFor 0 (askWhen 5) 7 11 ++ [.receive 0 1000] ++
  asksFor 0 askPast 8 13 ++ [.receive 0 1000]

set_option maxRecDepth 100000 in
theorem mix_plays : (Net.play mixPicks (Net.new ⟨9092, []⟩ 0)).isSome = true := by decide +kernel

def mixRun : NetTimeline ⟨9092, []⟩ 0 := netCourse mixPicks mix_plays

set_option maxRecDepth 100000 in
theorem mix_asked : frames (asked 0 (upTo mixRun.ev 48)) = [(askWhen 5).message 7 ownName] ∧ frames (asked 0 (upTo mixRun.ev 66)) = [(askWhen 5).message 7 ownName, askPast.message 8 ownName] := by
  decide +kernel

/-- The responses, with their sizes. -/
def mixTime : Bytes := got 0 (upTo mixRun.ev 48)
def mixFetched : Bytes := (got 0 (upTo mixRun.ev 66)).drop mixTime.length

set_option maxRecDepth 100000 in
theorem mix_time : Client.response Client.listOffsets mixTime = some ((7, ⟨[⟨[116], [⟨0, 0, 0, 2⟩]⟩]⟩), []) := by decide +kernel

set_option synthInstance.maxSize 1000 in
set_option maxRecDepth 100000 in
theorem mix_fetched : Client.response Client.fetch mixFetched = some ((8, 0, [([116], [⟨0, 0, 2, []⟩])]), []) := by decide +kernel

theorem askPast_wf : askPast.WellFormed := by
  unfold askPast Request.WellFormed ShortList ShortStr
  decide

set_option maxRecDepth 100000 in
theorem mix_read : TimeRead (upTo mixRun.ev 48) 0 0 [116] 0 5 2 :=
  .mk (msg := (askWhen 5).message 7 ownName) (r := mixTime.drop 4) (a := 0) (c := 0) (by rw [mix_asked.1]; rfl) (accepted_proper seek_wf _ ownName_short) seek_fits.1 (by decide +kernel)
    (framed_of (by decide +kernel) (by decide +kernel)) mix_time rfl rfl rfl rfl rfl rfl (by decide) rfl rfl

set_option maxRecDepth 100000 in
theorem mix_poll : (Poll.mk 0 1 []).Seen (upTo mixRun.ev 66) [116] 0 2 := by
  refine .mk (msg := askPast.message 8 ownName) (r := mixFetched.drop 4) (j := 0) (by rw [mix_asked.2]; rfl) (accepted_proper askPast_wf _ ownName_short) (by unfold FitsBuffer; decide +kernel) ?_ rfl
    (by decide +kernel) (by decide +kernel) (framed_of (by decide +kernel) (by decide +kernel)) mix_fetched rfl rfl
  intro t ht
  simp only [List.mem_singleton] at ht
  exact ⟨_, by rw [ht]⟩

set_option maxRecDepth 100000 in
/-- **C135** is false of the code for timestamps that are not in order: a call of ExtendedPost with a timestamp of 10 ms has returned; then a consumer asks for the offset of the time 5, and fetches
from the offset that it reads; it receives nothing. -/
theorem C135_false : ∃ (ns : Nat → Net) (es : Nat → NEv) (o : I64), Listed ⟨9092, []⟩ 0 ns es 66 ∧ PostAt ns es [116] 0 20 1 stamped ∧ ReturnedBy ns 20 1 26 ∧ asked 0 (upTo es 26) = [] ∧
    TimeRead (upTo es 48) 0 0 [116] 0 5 o ∧ Polled (upTo es 66) [116] 0 o [⟨0, 1, []⟩] ∧ ¬ StampedBefore ns 66 5 20 stamped :=
  ⟨mixRun.st, mixRun.ev, 2, ⟨mixRun.start, fun k hk => mixRun.step k hk⟩, ⟨rfl, rfl, rfl, rfl⟩, ⟨26, by decide, by decide, .inr rfl⟩, by decide +kernel, mix_read, .more .none mix_poll,
    C135_since_partial (by decide) (by decide +kernel) ⟨by decide, by decide⟩⟩

end KM.Props
