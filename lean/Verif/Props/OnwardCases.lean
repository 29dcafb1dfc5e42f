import Verif.Props.Onward
import Verif.Props.BackCases
/-
C130: a test sets the offset of a group to 0 and returns; then a member commits 1, and another member asks for the offset twice.
-/
namespace KM.Props
open KM KM.Spec

/-- The call, to its return. -/
def setTurn : List NPick := (caller 1 backCall 5).map .mock
def setNet : Net := netAfter setTurn net3
def setTr : List NEv := tr3 ++ netEvents setTurn net3
/-- The first member commits; the second one asks for the offset. -/
def firstTurn : List NPick := asksFor 0 askCommitOne 3 10 ++ [.receive 0 1000] ++ asksFor 1 askOffset 4 13 ++ [.receive 1 1000]
def firstNet : Net := netAfter firstTurn setNet
def firstTr : List NEv := netEvents firstTurn setNet
/-- The second one asks again. -/
def secondTurn : List NPick := asksFor 1 askOffset 5 13 ++ [.receive 1 1000]
def secondNet : Net := netAfter secondTurn firstNet
def secondTr : List NEv := netEvents secondTurn firstNet

theorem set_run : Net.Run (Net.new ⟨9092, []⟩ 0) setTr setNet := turn_fetch.run.append (netAfter_run _ _)
theorem first_run : Net.Run setNet firstTr firstNet := netAfter_run _ _
theorem second_run : Net.Run firstNet secondTr secondNet := netAfter_run _ _

theorem second_whole : Net.Run (Net.new ⟨9092, []⟩ 0) (setTr ++ (firstTr ++ secondTr)) secondNet := set_run.append (first_run.append second_run)
theorem first_whole : Net.Run (Net.new ⟨9092, []⟩ 0) (setTr ++ firstTr) firstNet := set_run.append first_run

def commitReply : Bytes := (got 0 (setTr ++ firstTr)).drop (got 0 setTr).length
def readOne : Bytes := got 1 (setTr ++ firstTr)
def readTwo : Bytes := (got 1 (setTr ++ (firstTr ++ secondTr))).drop readOne.length

set_option maxRecDepth 100000 in
theorem forward_asked : frames (asked 0 (setTr ++ firstTr)) = [askOffset.message 1 ownName, askFetch.message 2 ownName, askCommitOne.message 3 ownName] ∧
    (frames (asked 0 setTr)).length = 2 ∧ (frames (asked 1 setTr)).length = 0 ∧ (frames (asked 1 (setTr ++ firstTr))) = [askOffset.message 4 ownName] ∧
    frames (asked 1 (setTr ++ (firstTr ++ secondTr))) = [askOffset.message 4 ownName, askOffset.message 5 ownName] := by decide +kernel

set_option synthInstance.maxSize 1000 in
set_option maxRecDepth 100000 in
theorem forward_replies : Client.response Client.commit commitReply = some ((3, ⟨[⟨[116], [⟨0, 0⟩]⟩]⟩), []) ∧
    Client.response Client.offsetFetch readOne = some ((4, ⟨[⟨[116], [⟨0, 1, none, 0⟩]⟩]⟩), []) ∧
    Client.response Client.offsetFetch readTwo = some ((5, ⟨[⟨[116], [⟨0, 1, none, 0⟩]⟩]⟩), []) := by decide +kernel

set_option maxRecDepth 100000 in
theorem forward_commit : CommitAcked (setTr ++ firstTr) 0 2 [116] 0 [103] 1 :=
  .mk (msg := askCommitOne.message 3 ownName) (r := commitReply.drop 4) (j := 0) (l := 0) (by rw [forward_asked.1]; rfl) (accepted_proper askCommitOne_wf _ ownName_short) fits.2.2.1 rfl
    (by decide +kernel) (framed_of (by decide +kernel) (by decide +kernel)) forward_replies.1 rfl rfl rfl rfl rfl rfl rfl rfl

set_option maxRecDepth 100000 in
theorem forward_read : OffsetRead (setTr ++ firstTr) 1 0 [116] 0 [103] 1 :=
  .mk (msg := askOffset.message 4 ownName) (r := readOne.drop 4) (by rw [forward_asked.2.2.2.1]; rfl) (accepted_proper askOffset_wf _ ownName_short) fits.2.2.2 rfl (by decide +kernel)
    (framed_of (by decide +kernel) (by decide +kernel)) forward_replies.2.1 List.mem_cons_self rfl List.mem_cons_self rfl rfl

/-- The events in which the offset of a group is not set. -/
def noSet : NEv → Bool
  | .mock (.life (.api _ (.setConsumerGroupOffset ..))) => false
  | _ => true

/-- Caller 1 is the only one that sets an offset. -/
def onlyOne : NEv → Bool
  | .mock (.life (.api i (.setConsumerGroupOffset ..))) => i == 1
  | _ => true

set_option maxRecDepth 100000 in
theorem forward_set : SetBackDone ⟨9092, []⟩ 0 setTr setNet (setTr ++ (firstTr ++ secondTr)) [116] 0 [103] 1 := by
  rintro k i m o' n0 hc _
  obtain ⟨ht, rfl, _, _⟩ := hc
  have h : (firstTr ++ secondTr).all noSet = true := by decide +kernel
  have h1 : (setTr ++ (firstTr ++ secondTr)).all onlyOne = true := by decide +kernel
  have hi : setNet.sys.api 1 = .idle := rfl
  have h2 := List.all_eq_true.1 h1 (.mock (.life (.api i (.setConsumerGroupOffset [116] m [103] o')))) (by rw [ht]; simp)
  have : i = 1 := by simpa [onlyOne] using h2
  subst this
  refine .inr ⟨?_, hi⟩
  rcases List.append_eq_append_iff.1 ht with ⟨y, _, y2⟩ | ⟨y, y1, y2⟩
  · have := List.all_eq_true.1 h (.mock (.life (.api 1 (.setConsumerGroupOffset [116] m [103] o')))) (by rw [y2]; simp)
    cases this
  · cases y with
    | nil =>
      have := List.all_eq_true.1 h (.mock (.life (.api 1 (.setConsumerGroupOffset [116] m [103] o')))) (by rw [List.nil_append] at y2; rw [← y2]; simp)
      cases this
    | cons z y => rw [y1]; simp

set_option maxRecDepth 100000 in
/-- The hypotheses of `C130_commit` and `C130_read`, after a call that has set the offset back, and what is answered. -/
example : (∃ k n0, Called ⟨9092, []⟩ 0 (setTr ++ (firstTr ++ secondTr)) k 1 (.setConsumerGroupOffset [116] 0 [103] 0) n0) ∧
    OffsetRead (setTr ++ (firstTr ++ secondTr)) 1 1 [116] 0 [103] 1 ∧
    (∃ b x, Framed b [readTwo.drop 4] ∧ Client.response Client.offsetFetch b = some ((5, x), []) ∧
      ∀ y ∈ x.topics, y.name = [116] → ∀ z ∈ y.partitions, z.partitionIndex = 0 → 1 ≤ z.committedOffset.toInt) := by
  have hm : (frames (asked 1 (setTr ++ (firstTr ++ secondTr))))[1]? = some (askOffset.message 5 ownName) := by rw [forward_asked.2.2.2.2]; rfl
  have ha := accepted_proper askOffset_wf 5 ownName_short
  have hb : FitsBuffer askOffset 5 ownName := by unfold FitsBuffer; decide +kernel
  have hr : (frames (got 1 (setTr ++ (firstTr ++ secondTr))))[1]? = some (readTwo.drop 4) := by decide +kernel
  have s0 := smallReplies_check first_whole 0 (by decide +kernel)
  have s1 := smallReplies_check first_whole 1 (by decide +kernel)
  have s2 := smallReplies_check second_whole 1 (by decide +kernel)
  have hlate : (frames (asked 1 (setTr ++ firstTr))).length ≤ 1 := Nat.le_of_eq (congrArg List.length forward_asked.2.2.2.1)
  have := C130_read set_run first_run second_run s1 s2 forward_read (by rw [forward_asked.2.2.1]) forward_set hlate hm ha hb rfl hr
  obtain ⟨b, x, g1, g2, _, g4⟩ := C130_commit set_run first_run second_run s0 s2 forward_commit (by rw [forward_asked.2.1]) forward_set hlate hm ha hb rfl hr
  refine ⟨⟨tr3.length, net3, .mk (u := tr3) (v := (netEvents setTurn net3).tail ++ (firstTr ++ secondTr)) ?_ rfl turn_fetch.run rfl⟩, ?_, b, x, g1, g2, g4⟩
  · have : netEvents setTurn net3 = .mock (.life (.api 1 backCall)) :: (netEvents setTurn net3).tail := rfl
    show tr3 ++ netEvents setTurn net3 ++ _ = _
    rw [this]; simp [backCall]
  · exact .mk hm ha hb rfl hr (framed_of (by decide +kernel) (by decide +kernel)) forward_replies.2.2 List.mem_cons_self rfl List.mem_cons_self rfl rfl

end KM.Props
