import Verif.Props.Back
import Verif.Props.OnceCases
/-
C128: the run of C112, in which a member of a group fetches a record and commits it; then a test sets the offset of the group back, and another member reads the record again. And the same
with a commit that is under way when the test sets the offset: it undoes the call.
-/
namespace KM.Props
open KM KM.Spec

/-- A test sets the offset of the group back to the beginning. -/
def backCall : Call := .setConsumerGroupOffset [116] 0 [103] 0

def backTurn : List NPick := (caller 1 backCall 4).map .mock
def backNet : Net := netAfter backTurn net4
/-- What happens during the call, after the call itself. -/
def backDuring : List NEv := (netEvents backTurn net4).tail
/-- The second member asks for the offset and fetches from there. -/
def againTurn : List NPick := asksFor 1 askOffset 4 13 ++ [.receive 1 1000] ++ asksFor 1 askFetch 5 14 ++ [.receive 1 1000]
def againNet : Net := netAfter againTurn backNet
def againTr : List NEv := netEvents againTurn backNet
def backTr : List NEv := tr4 ++ .mock (.life (.api 1 backCall)) :: (backDuring ++ againTr)

set_option maxRecDepth 100000 in
theorem back_split : netEvents backTurn net4 = .mock (.life (.api 1 backCall)) :: backDuring := rfl

theorem back_run : Net.Run net4 (.mock (.life (.api 1 backCall)) :: backDuring) backNet := by rw [← back_split]; exact netAfter_run _ _

theorem again_run : Net.Run backNet againTr againNet := netAfter_run _ _

theorem back_whole : Net.Run (Net.new ⟨9092, []⟩ 0) backTr againNet := turn_commit.run.append (back_run.append again_run)

/-- The caller's events during a call. -/
def noCall : NEv → Bool
  | .mock (.life (.api ..)) => false
  | _ => true

set_option maxRecDepth 100000 in
theorem back_sets : SetsOffset ⟨9092, []⟩ 0 tr4 backDuring net4 backNet 1 [116] 0 [103] 0 := by
  refine ⟨turn_commit.run, ⟨rfl, ?_, ?_, rfl⟩, back_run⟩
  · have := back_run.sys
    cases this with
    | cons h1 h2 => exact ⟨_, h1, h2⟩
  · intro c' hm
    obtain ⟨e, h1, h2⟩ := List.mem_filterMap.1 hm
    have h : backDuring.all noCall = true := by decide +kernel
    have h3 := List.all_eq_true.1 h _ h1
    cases e with
    | mock e => cases h2; cases h3
    | _ => cases h2

set_option maxRecDepth 100000 in
theorem back_asked : frames (asked 0 backTr) = [askOffset.message 1 ownName, askFetch.message 2 ownName, askCommitOne.message 3 ownName] ∧
    frames (asked 1 (tr4 ++ .mock (.life (.api 1 backCall)) :: backDuring)) = [] ∧ frames (asked 1 backTr) = [askOffset.message 4 ownName, askFetch.message 5 ownName] ∧
    (frames (got 0 tr4)).length = 3 := by decide +kernel

set_option maxRecDepth 100000 in
theorem back_two : backTr.all onlyTwo = true := by decide +kernel

set_option maxRecDepth 100000 in
theorem back_small (c : Nat) : SmallReplies ⟨9092, []⟩ (actsOf c (mocks backTr)) := by
  by_cases h0 : c = 0
  · subst h0; exact smallReplies_check back_whole 0 (by decide +kernel)
  · by_cases h1 : c = 1
    · subst h1; exact smallReplies_check back_whole 1 (by decide +kernel)
    · rw [(two_others back_two h0 h1).2]
      intro l1 m l2 l3 c payload e
      exact absurd e (by simp)

set_option maxRecDepth 100000 in
theorem back_records : ∀ t p, ∀ x ∈ (againNet.sys.view 0).log t p, wireSize x < 2 ^ 31 :=
  (roomy_of (k := 0) (tr := []) (s2 := againNet.sys) (by decide +kernel) (by decide)).records

set_option maxRecDepth 100000 in
theorem back_log : ((againNet.sys.view 0).log [116] 0).length = 1 := by decide +kernel

theorem back_fits : FitsBuffer askFetch 5 ownName := by unfold FitsBuffer; decide +kernel

/-- The one commit is answered before the call. -/
theorem back_commits : CommitsDone tr4 backTr [116] 0 [103] 0 := by
  intro c i o' h
  by_cases h0 : c = 0
  · subst h0
    refine .inr ?_
    rw [back_asked.2.2.2]
    obtain ⟨hm, _, _, _, _, _, _, _, _⟩ := h
    obtain ⟨hl, _⟩ := List.getElem?_eq_some_iff.1 hm
    rw [back_asked.1] at hl
    exact hl
  · by_cases h1 : c = 1
    · subst h1
      match i, h with
      | 0, h =>
        obtain ⟨q, hq, _⟩ := h.is (by rw [back_asked.2.2.1]; rfl) (accepted_proper askOffset_wf _ ownName_short) fits.2.2.2
        cases hq
      | 1, h =>
        obtain ⟨q, hq, _⟩ := h.is (by rw [back_asked.2.2.1]; rfl) (accepted_proper askFetch_wf _ ownName_short) back_fits
        cases hq
      | l + 2, ⟨hm, _, _, _, _, _, _, _, _⟩ => rw [back_asked.2.2.1] at hm; cases hm
    · obtain ⟨hm, _, _, _, _, _, _, _, _⟩ := h
      rw [(two_others back_two h0 h1).1] at hm
      cases hm

/-- No call but this one sets an offset. -/
def onlyBack : NEv → Bool
  | .mock (.life (.api _ (.setConsumerGroupOffset _ _ _ o))) => o == 0
  | _ => true

set_option maxRecDepth 100000 in
theorem back_sets_done : SetsDone ⟨9092, []⟩ 0 tr4 net4 backTr [116] 0 [103] 0 := by
  rintro k i m o' n0 ⟨ht, _, _, _⟩ _
  have h : backTr.all onlyBack = true := by decide +kernel
  have := List.all_eq_true.1 h (.mock (.life (.api i (.setConsumerGroupOffset [116] m [103] o')))) (by rw [ht]; simp)
  exact .inl (by simpa [onlyBack] using this)

/-- The responses, with their sizes. -/
def offsetAgain : Bytes := (got 1 backTr).take ((got 1 (tr4 ++ .mock (.life (.api 1 backCall)) :: (backDuring ++ netEvents (asksFor 1 askOffset 4 13 ++ [.receive 1 1000]) backNet))).length)
def fetchAgain : Bytes := (got 1 backTr).drop offsetAgain.length

set_option synthInstance.maxSize 1000 in
set_option maxRecDepth 100000 in
theorem again_read : Client.response Client.offsetFetch offsetAgain = some ((4, ⟨[⟨[116], [⟨0, 0, none, 0⟩]⟩]⟩), []) ∧
    Client.response Client.fetch fetchAgain = some ((5, 0, [([116], [⟨0, 0, 1, [theMessage]⟩])]), []) := by decide +kernel

set_option maxRecDepth 100000 in
/-- The second member reads the offset. -/
theorem again_offset : OffsetRead backTr 1 0 [116] 0 [103] 0 :=
  .mk (msg := askOffset.message 4 ownName) (r := offsetAgain.drop 4) (by rw [back_asked.2.2.1]; rfl) (accepted_proper askOffset_wf _ ownName_short) fits.2.2.2 rfl (by decide +kernel)
    (framed_of (by decide +kernel) (by decide +kernel)) again_read.1 List.mem_cons_self rfl List.mem_cons_self rfl rfl

set_option maxRecDepth 100000 in
/-- It fetches. -/
theorem again_poll : (Poll.mk 1 1 [theMessage]).Seen backTr [116] 0 0 := by
  refine .mk (msg := askFetch.message 5 ownName) (r := fetchAgain.drop 4) (j := 0) (by rw [back_asked.2.2.1]; rfl) (accepted_proper askFetch_wf _ ownName_short) back_fits ?_ rfl
    (by decide +kernel) (by decide +kernel) (framed_of (by decide +kernel) (by decide +kernel)) again_read.2 rfl rfl
  intro t ht
  simp only [List.mem_singleton] at ht
  exact ⟨_, by rw [ht]⟩

set_option maxRecDepth 100000 in
theorem back_exists : (net4.sys.view 0).hasPartition [116] 0 := by unfold World.hasPartition; decide +kernel

/-- The hypotheses of `C128_back` and `C128_again`, after a commit of 1 that was acknowledged, and what the theorem says of the run: the second member receives the record that the first one
has committed. -/
example : CommitAcked tr4 0 2 [116] 0 [103] 1 ∧ Polled backTr [116] 0 0 [⟨1, 1, [theMessage]⟩] ∧ Labelled 0 (slice ((againNet.sys.view 0).log [116] 0) 0 1) [theMessage] :=
  have hp : Polled backTr [116] 0 0 [⟨1, 1, [theMessage]⟩] := .more .none again_poll
  ⟨relay_commit, hp, (C128_again back_sets again_run back_exists rfl back_small back_commits back_sets_done (Nat.le_of_eq (congrArg List.length back_asked.2.1)) again_offset hp back_records
    (by decide) (by rw [show BitVec.ofInt 32 0 = (0 : I32) from rfl, back_log]; decide)).2⟩

/-! ## A commit under way -/

/-- The member has sent its commit and the mock has taken it up. -/
def underTurn : List NPick := asksFor 0 askCommitOne 3 3
def underNet : Net := netAfter underTurn net3
def underTr : List NEv := tr3 ++ netEvents underTurn net3
/-- A test sets the offset back, and is about to return from the call. -/
def undoneNet : Net := netAfter backTurn underNet
def undoneTr : List NEv := (netEvents backTurn underNet).tail
/-- The commit is answered; then another member asks for the offset. -/
def raceTurn : List NPick := List.replicate 7 (.mock (.conn 0)) ++ [.receive 0 1000] ++ asksFor 1 askOffset 4 13 ++ [.receive 1 1000]
def raceNet : Net := netAfter raceTurn undoneNet
def raceTr : List NEv := netEvents raceTurn undoneNet
def raceWhole : List NEv := underTr ++ .mock (.life (.api 1 backCall)) :: (undoneTr ++ raceTr)

set_option maxRecDepth 100000 in
theorem undone_split : netEvents backTurn underNet = .mock (.life (.api 1 backCall)) :: undoneTr := rfl

theorem undone_run : Net.Run underNet (.mock (.life (.api 1 backCall)) :: undoneTr) undoneNet := by rw [← undone_split]; exact netAfter_run _ _

set_option maxRecDepth 100000 in
theorem undone_sets : SetsOffset ⟨9092, []⟩ 0 underTr undoneTr underNet undoneNet 1 [116] 0 [103] 0 := by
  refine ⟨turn_fetch.run.append (netAfter_run _ _), ⟨rfl, ?_, ?_, rfl⟩, undone_run⟩
  · have := undone_run.sys
    cases this with
    | cons h1 h2 => exact ⟨_, h1, h2⟩
  · intro c' hm
    obtain ⟨e, h1, h2⟩ := List.mem_filterMap.1 hm
    have h : undoneTr.all noCall = true := by decide +kernel
    have h3 := List.all_eq_true.1 h _ h1
    cases e with
    | mock e => cases h2; cases h3
    | _ => cases h2

def raceReply : Bytes := got 1 raceWhole

set_option maxRecDepth 100000 in
theorem race_read : Client.response Client.offsetFetch raceReply = some ((4, ⟨[⟨[116], [⟨0, 1, none, 0⟩]⟩]⟩), []) ∧
    frames (asked 1 (underTr ++ .mock (.life (.api 1 backCall)) :: undoneTr)) = [] ∧ frames (asked 1 raceWhole) = [askOffset.message 4 ownName] := by decide +kernel

set_option maxRecDepth 100000 in
theorem race_offset : OffsetRead raceWhole 1 0 [116] 0 [103] 1 :=
  .mk (msg := askOffset.message 4 ownName) (r := raceReply.drop 4) (by rw [race_read.2.2]; rfl) (accepted_proper askOffset_wf _ ownName_short) fits.2.2.2 rfl (by decide +kernel)
    (framed_of (by decide +kernel) (by decide +kernel)) race_read.1 List.mem_cons_self rfl List.mem_cons_self rfl rfl

set_option maxRecDepth 100000 in
theorem race_commit : CommitSent underTr 0 2 [116] 0 [103] 1 ∧ (frames (got 0 underTr)).length = 2 :=
  ⟨.mk (a := askCommitOne.message 3 ownName) (extra := []) (by decide +kernel) (accepted_proper askCommitOne_wf _ ownName_short) fits.2.2.1 rfl List.mem_cons_self rfl List.mem_cons_self rfl rfl, by decide +kernel⟩

set_option maxRecDepth 100000 in
/-- **C128**, why the commits have to be done: a client sends an OffsetCommit request for 1; before it is answered, SetConsumerGroupOffset sets the offset to 0 and returns; an OffsetFetch request
sent after the return is answered with 1. -/
theorem C128_race : ∃ (sv : Server) (clock : Int) (ta tb tc : List NEv) (na nb n : Net), SetsOffset sv clock ta tb na nb 1 [116] 0 [103] 0 ∧ Net.Run nb tc n ∧
    (na.sys.view 0).hasPartition [116] 0 ∧ CommitSent ta 0 2 [116] 0 [103] 1 ∧ (frames (got 0 ta)).length = 2 ∧
    (frames (asked 1 (ta ++ .mock (.life (.api 1 (.setConsumerGroupOffset [116] 0 [103] 0))) :: tb))).length = 0 ∧
    OffsetRead (ta ++ .mock (.life (.api 1 (.setConsumerGroupOffset [116] 0 [103] 0))) :: (tb ++ tc)) 1 0 [116] 0 [103] 1 :=
  ⟨_, _, underTr, undoneTr, raceTr, underNet, undoneNet, raceNet, undone_sets, netAfter_run _ _, (by unfold World.hasPartition; decide +kernel), race_commit.1, race_commit.2, congrArg List.length race_read.2.1, race_offset⟩

end KM.Props
