import Verif.Props.Tail
import Verif.Props.TallyCases
/-
C133: a record is posted; a consumer asks for the end of the log; another record is posted; the consumer fetches from the offset that it has read.
-/
namespace KM.Props
open KM KM.Spec

def tailPicks : List NPick := (starts 0 ++ opens 0 ++ accepts 0 ++ caller 1 postOne 6).map .mock ++ asksFor 0 (askWhen (-1)) 7 11 ++ [.receive 0 1000] ++ (caller 1 posting.call 6).map .mock ++
  asksFor 0 askNext 8 14 ++ [.receive 0 1000]

set_option maxRecDepth 100000 in
theorem tail_plays : (Net.play tailPicks (Net.new ⟨9092, []⟩ 0)).isSome = true := by decide +kernel

def tailRun : NetTimeline ⟨9092, []⟩ 0 := netCourse tailPicks tail_plays

theorem tail_listed : Listed ⟨9092, []⟩ 0 tailRun.st tailRun.ev 67 := ⟨tailRun.start, fun k hk => tailRun.step k hk⟩

set_option maxRecDepth 100000 in
theorem tail_asked : frames (asked 0 (upTo tailRun.ev 26)) = [] ∧ frames (asked 0 (upTo tailRun.ev 42)) = [(askWhen (-1)).message 7 ownName] ∧
    frames (asked 0 (upTo tailRun.ev 48)) = [(askWhen (-1)).message 7 ownName] ∧
    frames (asked 0 (upTo tailRun.ev 67)) = [(askWhen (-1)).message 7 ownName, askNext.message 8 ownName] := by decide +kernel

/-- The responses, with their sizes. -/
def tailEnd : Bytes := got 0 (upTo tailRun.ev 42)
def tailFetched : Bytes := (got 0 (upTo tailRun.ev 67)).drop tailEnd.length

set_option maxRecDepth 100000 in
theorem tail_end : Client.response Client.listOffsets tailEnd = some ((7, ⟨[⟨[116], [⟨0, 0, 0, 1⟩]⟩]⟩), []) := by decide +kernel

set_option synthInstance.maxSize 1000 in
set_option maxRecDepth 100000 in
theorem tail_fetched : Client.response Client.fetch tailFetched = some ((8, 0, [([116], [⟨0, 0, 2, [anotherMessage]⟩])]), []) := by decide +kernel

theorem tail_fits : FitsBuffer askNext 8 ownName := by unfold FitsBuffer; decide +kernel

set_option maxRecDepth 100000 in
theorem tail_read : EndRead (upTo tailRun.ev 42) 0 0 [116] 0 1 :=
  .mk (msg := (askWhen (-1)).message 7 ownName) (r := tailEnd.drop 4) (a := 0) (c := 0) (by rw [tail_asked.2.1]; rfl) (accepted_proper tally_wf _ ownName_short) tally_fits (by decide +kernel)
    (framed_of (by decide +kernel) (by decide +kernel)) tail_end rfl rfl rfl rfl rfl rfl (by decide) rfl rfl

set_option maxRecDepth 100000 in
theorem tail_poll : (Poll.mk 0 1 [anotherMessage]).Seen (upTo tailRun.ev 67) [116] 0 1 := by
  refine .mk (msg := askNext.message 8 ownName) (r := tailFetched.drop 4) (j := 0) (by rw [tail_asked.2.2.2]; rfl) (accepted_proper askNext_wf _ ownName_short) tail_fits ?_ rfl
    (by decide +kernel) (by decide +kernel) (framed_of (by decide +kernel) (by decide +kernel)) tail_fetched rfl rfl
  intro t ht
  simp only [List.mem_singleton] at ht
  exact ⟨_, by rw [ht]⟩

set_option maxRecDepth 100000 in
theorem tail_two : (upTo tailRun.ev 67).all onlyTwo = true := by decide +kernel

set_option maxRecDepth 100000 in
theorem tail_small (c : Nat) : SmallReplies ⟨9092, []⟩ (actsOf c (mocks (upTo tailRun.ev 67))) := by
  by_cases h0 : c = 0
  · subst h0; exact smallReplies_check tail_listed.run 0 (by decide +kernel)
  · by_cases h1 : c = 1
    · subst h1; exact smallReplies_check tail_listed.run 1 (by decide +kernel)
    · rw [(two_others tail_two h0 h1).2]
      intro l1 m l2 l3 c payload e
      exact absurd e (by simp)

set_option maxRecDepth 100000 in
theorem tail_room : ∀ t p, ∀ x ∈ ((tailRun.st 67).sys.view 0).log t p, wireSize x < 2 ^ 31 :=
  (roomy_of (k := 0) (tr := []) (s2 := (tailRun.st 67).sys) (by decide +kernel) (by decide)).records

set_option maxRecDepth 100000 in
theorem tail_log : (((tailRun.st 67).sys.view 0).log [116] 0).length = 2 := by decide +kernel

set_option maxRecDepth 100000 in
theorem tail_posts : PostAt tailRun.st tailRun.ev [116] 0 20 1 firstPost ∧ ReturnedBy tailRun.st 20 1 26 ∧ PostAt tailRun.st tailRun.ev [116] 0 42 1 posting ∧ ReturnedBy tailRun.st 42 1 48 :=
  ⟨⟨rfl, rfl, rfl, rfl⟩, ⟨26, by decide, by decide, .inr rfl⟩, ⟨rfl, rfl, rfl, rfl⟩, ⟨48, by decide, by decide, .inr rfl⟩⟩

/-- The hypotheses of `C133`, and what the theorem says of the run: the message comes from the second call, event number 42. -/
example : MessageOf tailRun.st tailRun.ev 67 [116] 0 42 anotherMessage := by
  obtain ⟨ks, _, h2, _, h4, _⟩ := C133 tail_listed (m := 48) (m0 := 26) (m1 := 42) (by decide) (by decide) (by decide) tail_room tail_read
    (Nat.le_of_eq (congrArg List.length tail_asked.1)) (ps := []) (x := ⟨0, 1, [anotherMessage]⟩) (.more .none tail_poll) tail_small (by rw [tail_log]; decide)
    (Nat.le_of_eq (congrArg List.length tail_asked.2.2.1))
  have := h4 42 1 posting tail_posts.2.2.1 (Nat.le_refl _) tail_posts.2.2.2
  cases h2 with
  | cons g h2 => cases h2 with
    | nil => cases List.mem_singleton.1 this; exact g

end KM.Props
