import Verif.Props.Once
import Verif.Props.TurnsCases
import Verif.Props.PollsCases
/-
C113: the run of C112, in which a member of a group fetches a record and commits it and another reads the committed offset; then a second record is posted, and the other member fetches it.
-/
namespace KM.Props
open KM KM.Spec

/-- A test posts another record; the second member fetches from the offset it has read. -/
def turn6 : List NPick := (caller 1 (.simplePost [116] 0 none (some [3])) 6).map .mock ++ asksFor 1 askNext 5 14 ++ [.receive 1 1000]
def net6 : Net := netAfter turn6 net5
def tr6 : List NEv := tr5 ++ netEvents turn6 net5

set_option maxRecDepth 100000 in
theorem relay_asked : frames (asked 0 tr5) = [askOffset.message 1 ownName, askFetch.message 2 ownName, askCommitOne.message 3 ownName] ∧ frames (asked 1 tr4) = [] ∧
    frames (asked 1 tr5) = [askOffset.message 4 ownName] ∧ frames (asked 1 tr6) = [askOffset.message 4 ownName, askNext.message 5 ownName] := by decide +kernel

theorem relay_run : Net.Run (Net.new ⟨9092, []⟩ 0) tr6 net6 := turn_other.run.append (netAfter_run _ _)

/-- The response to the second member's Fetch, with its size. -/
def reply6 : Bytes := (got 1 tr6).drop (got 1 tr5).length

/-- What the second member reads in it. -/
def anotherMessage : MessageV1 := ⟨1, 35, 1212211045#32, 1, 0, 0, none, some [3]⟩

set_option maxRecDepth 100000 in
theorem relay_read : Client.response Client.offsetFetch reply2 = some ((1, ⟨[⟨[116], [⟨0, 0, none, 0⟩]⟩]⟩), []) ∧
    Client.response Client.commit reply4 = some ((3, ⟨[⟨[116], [⟨0, 0⟩]⟩]⟩), []) ∧
    Client.response Client.offsetFetch reply5 = some ((4, ⟨[⟨[116], [⟨0, 1, none, 0⟩]⟩]⟩), []) := by decide +kernel

set_option synthInstance.maxSize 1000 in
set_option maxRecDepth 100000 in
theorem relay_fetched : Client.response Client.fetch reply3 = some ((2, 0, [([116], [⟨0, 0, 1, [theMessage]⟩])]), []) ∧
    Client.response Client.fetch reply6 = some ((5, 0, [([116], [⟨0, 0, 2, [anotherMessage]⟩])]), []) := by decide +kernel

theorem relay_fits : FitsBuffer askNext 5 ownName := by unfold FitsBuffer; decide +kernel

set_option maxRecDepth 100000 in
/-- The first member reads the offset. -/
theorem relay_first : OffsetRead tr2 0 0 [116] 0 [103] 0 :=
  .mk (msg := askOffset.message 1 ownName) (r := reply2.drop 4) (by decide +kernel) (accepted_proper askOffset_wf _ ownName_short) fits.1 rfl (by decide +kernel)
    (framed_of (by decide +kernel) (by decide +kernel)) relay_read.1 List.mem_cons_self rfl List.mem_cons_self rfl rfl

set_option maxRecDepth 100000 in
/-- It fetches. -/
theorem relay_poll : (Poll.mk 0 1 [theMessage]).Seen tr3 [116] 0 0 := by
  refine .mk (msg := askFetch.message 2 ownName) (r := reply3.drop 4) (j := 0) (by decide +kernel) (accepted_proper askFetch_wf _ ownName_short) fits.2.1 ?_ rfl
    (by decide +kernel) (by decide +kernel) (framed_of (by decide +kernel) (by decide +kernel)) relay_fetched.1 rfl rfl
  intro t ht
  simp only [List.mem_singleton] at ht
  exact ⟨_, by rw [ht]⟩

set_option maxRecDepth 100000 in
/-- It commits and is told that there is no error. -/
theorem relay_commit : CommitAcked tr4 0 2 [116] 0 [103] 1 :=
  .mk (msg := askCommitOne.message 3 ownName) (r := reply4.drop 4) (j := 0) (l := 0) (by decide +kernel) (accepted_proper askCommitOne_wf _ ownName_short) fits.2.2.1 rfl (by decide +kernel)
    (framed_of (by decide +kernel) (by decide +kernel)) relay_read.2.1 rfl rfl rfl rfl rfl rfl rfl rfl

set_option maxRecDepth 100000 in
/-- The second member reads the offset. -/
theorem relay_second : OffsetRead tr5 1 0 [116] 0 [103] 1 :=
  .mk (msg := askOffset.message 4 ownName) (r := reply5.drop 4) (by decide +kernel) (accepted_proper askOffset_wf _ ownName_short) fits.2.2.2 rfl (by decide +kernel)
    (framed_of (by decide +kernel) (by decide +kernel)) relay_read.2.2 List.mem_cons_self rfl List.mem_cons_self rfl rfl

set_option maxRecDepth 100000 in
/-- It fetches. -/
theorem relay_poll_too : (Poll.mk 1 1 [anotherMessage]).Seen tr6 [116] 0 1 := by
  refine .mk (msg := askNext.message 5 ownName) (r := reply6.drop 4) (j := 0) (by rw [relay_asked.2.2.2]; rfl) (accepted_proper askNext_wf _ ownName_short) relay_fits ?_ rfl
    (by decide +kernel) (by decide +kernel) (framed_of (by decide +kernel) (by decide +kernel)) relay_fetched.2 rfl rfl
  intro t ht
  simp only [List.mem_singleton] at ht
  exact ⟨_, by rw [ht]⟩

theorem relay_max {k l : Nat} {x : I64} (h : CommitSent tr5 k l [116] 0 [103] x) : x.toInt ≤ (1 : I64).toInt := by
  by_cases h0 : k = 0
  · subst h0
    match l, h with
    | 0, h =>
      obtain ⟨q, hq, _⟩ := h.is (by rw [relay_asked.1]; rfl) (accepted_proper askOffset_wf _ ownName_short) fits.1
      cases hq
    | 1, h =>
      obtain ⟨q, hq, _⟩ := h.is (by rw [relay_asked.1]; rfl) (accepted_proper askFetch_wf _ ownName_short) fits.2.1
      cases hq
    | 2, h =>
      obtain ⟨q, hq, qt, h1, qp, h2, h3⟩ := h.is (by rw [relay_asked.1]; rfl) (accepted_proper askCommitOne_wf _ ownName_short) fits.2.2.1
      cases hq
      cases List.mem_singleton.1 h1
      cases List.mem_singleton.1 h2
      rw [← h3]
    | l + 3, ⟨hm, _, _, _, _, _, _, _, _⟩ => rw [relay_asked.1] at hm; cases hm
  · by_cases h1 : k = 1
    · subst h1
      match l, h with
      | 0, h =>
        obtain ⟨q, hq, _⟩ := h.is (by rw [relay_asked.2.2.1]; rfl) (accepted_proper askOffset_wf _ ownName_short) fits.2.2.2
        cases hq
      | l + 1, ⟨hm, _, _, _, _, _, _, _, _⟩ => rw [relay_asked.2.2.1] at hm; cases hm
    · obtain ⟨hm, _, _, _, _, _, _, _, _⟩ := h
      rw [(two_others turns_two h0 h1).1] at hm
      cases hm

/-- Two members take turns, the second fetches the second record. -/
theorem relay : Relay [103] [116] 0 0 tr6 [⟨0, 1, [theMessage]⟩, ⟨1, 1, [anotherMessage]⟩] :=
  .next (ta := tr3) (tb := netEvents turn4 net3) (tc := netEvents turn5 net4) (td := netEvents turn6 net5) (ps := [⟨0, 1, [theMessage]⟩]) (qs := [⟨1, 1, [anotherMessage]⟩])
    (.first (ta := tr2) (tb := netEvents turn3 net2) relay_first (.more .none relay_poll)) relay_commit (by rw [show tr3 ++ netEvents turn4 net3 = tr4 from rfl, relay_asked.2.1]; exact Nat.le_refl _)
    relay_second (fun _ _ _ h => relay_max h) (.more .none relay_poll_too)

set_option maxRecDepth 100000 in
theorem relay_two : tr6.all onlyTwo = true := by decide +kernel

set_option maxRecDepth 100000 in
theorem relay_small (c : Nat) : SmallReplies ⟨9092, []⟩ (actsOf c (mocks tr6)) := by
  by_cases h0 : c = 0
  · subst h0; exact smallReplies_check relay_run 0 (by decide +kernel)
  · by_cases h1 : c = 1
    · subst h1; exact smallReplies_check relay_run 1 (by decide +kernel)
    · rw [(two_others relay_two h0 h1).2]
      intro l1 m l2 l3 c payload e
      exact absurd e (by simp)

set_option maxRecDepth 100000 in
theorem relay_records : ∀ t p, ∀ x ∈ (net6.sys.view 0).log t p, wireSize x < 2 ^ 31 :=
  (roomy_of (k := 0) (tr := []) (s2 := net6.sys) (by decide +kernel) (by decide)).records

set_option maxRecDepth 100000 in
theorem relay_log : ((net6.sys.view 0).log [116] 0).length = 2 := by decide +kernel

set_option maxRecDepth 100000 in
theorem relay_not_set : NotSet ⟨9092, []⟩ 0 tr6 [103] [116] 0 := by
  rintro k i m o n0 ⟨ht, _, _, _⟩
  have h : tr6.all notSetting = true := by decide +kernel
  have := List.all_eq_true.1 h (.mock (.life (.api i (.setConsumerGroupOffset [116] m [103] o)))) (by rw [ht]; simp)
  cases this

/-- The hypotheses of `C113` (and, with `relay_commit`, `relay_second` and `relay_max`, those of `C113_commits` and `C113_exact`), and what the theorem says of the run. -/
example : Relay [103] [116] 0 0 tr6 [⟨0, 1, [theMessage]⟩, ⟨1, 1, [anotherMessage]⟩] ∧ Labelled 0 (slice ((net6.sys.view 0).log [116] 0) 0 2) [theMessage, anotherMessage] :=
  ⟨relay, (C113 relay relay_run relay_records relay_small (by rw [relay_log]; decide) relay_not_set).1⟩

end KM.Props
