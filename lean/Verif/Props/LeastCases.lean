import Verif.Props.Least
import Verif.Props.SeenCases
/-
C110, C111: a run in which a member of a consumer group fetches a record, sends its commit and is not heard of again, and another member goes on from there.
-/
namespace KM.Props
open KM KM.Spec

/-- The client of connection `c` sends a request; the mock serves it, in `k` steps. -/
def asksFor (c : Nat) (req : Request) (corr : I32) (k : Nat) : List NPick :=
  [.send c (frame req corr), .mock (.conn c), .mock (.conn c), .mock (.recv c (.data (frame req corr)))] ++ List.replicate k (.mock (.conn c))

/-- The mock starts, two clients connect, and a test posts a record. A member of the group asks for its offset and fetches. -/
def memberReads : List NPick := (starts 0 ++ opens 0 ++ accepts 0 ++ accepts 0 ++ caller 1 postOne 6).map .mock ++ asksFor 0 askOffset 1 13 ++ [.receive 0 1000] ++
  asksFor 0 askFetch 2 14 ++ [.receive 0 30, .receive 0 1000]

/-- It sends its commit, which is served. Another member asks for the offset. -/
def memberFollows : List NPick := asksFor 0 askCommitOne 3 10 ++ asksFor 1 askOffset 4 13 ++ [.receive 1 1000]

def readsTr : List NEv := netEvents memberReads (Net.new ⟨9092, []⟩ 0)
def readsNet : Net := netAfter memberReads (Net.new ⟨9092, []⟩ 0)
def followsTr : List NEv := netEvents memberFollows readsNet
def followsNet : Net := netAfter memberFollows readsNet

theorem reads_run : Net.Run (Net.new ⟨9092, []⟩ 0) readsTr readsNet := netAfter_run _ _
theorem follows_run : Net.Run (Net.new ⟨9092, []⟩ 0) (readsTr ++ followsTr) followsNet := reads_run.append (netAfter_run _ _)

def ownName : Option Bytes := some [99]

theorem ownName_short : ∀ x ∈ ownName, ShortStr x := by
  intro x hx; cases hx; unfold ShortStr; decide

set_option maxRecDepth 100000 in
theorem readsTr_asked : frames (asked 0 readsTr) = [askOffset.message 1 ownName, askFetch.message 2 ownName] := by decide +kernel

set_option maxRecDepth 100000 in
theorem followsTr_asked : frames (asked 0 (readsTr ++ followsTr)) = [askOffset.message 1 ownName, askFetch.message 2 ownName, askCommitOne.message 3 ownName] := by decide +kernel

set_option maxRecDepth 100000 in
theorem followsTr_asked_too : frames (asked 1 (readsTr ++ followsTr)) = [askOffset.message 4 ownName] := by decide +kernel

/-- Only connections 0 and 1. -/
def onlyTwo : NEv → Bool
  | .mock (.conn k _ _) | .send k _ | .receive k _ => k == 0 || k == 1
  | _ => true

set_option maxRecDepth 100000 in
theorem follows_two : (readsTr ++ followsTr).all onlyTwo = true := by decide +kernel

theorem two_others {tr : List NEv} (h : tr.all onlyTwo = true) {k : Nat} (h0 : k ≠ 0) (h1 : k ≠ 1) : asked k tr = [] ∧ actsOf k (mocks tr) = [] := by
  induction tr with
  | nil => exact ⟨rfl, rfl⟩
  | cons e tr ih =>
    simp only [List.all_cons, Bool.and_eq_true] at h
    obtain ⟨i1, i2⟩ := ih h.2
    have h := h.1
    cases e with
    | mock e =>
      refine ⟨i1, ?_⟩
      cases e with
      | conn k' a r =>
        have hk : k' ≠ k := by
          rintro rfl
          simp [onlyTwo, h0, h1] at h
        show actsOf k (.conn k' a r :: mocks tr) = []
        unfold actsOf at i2 ⊢
        simp [hk, i2]
      | _ => exact i2
    | send d b =>
      have hk : d ≠ k := by
        rintro rfl
        simp [onlyTwo, h0, h1] at h
      exact ⟨by simp [asked, hk, i1], i2⟩
    | receive d b => exact ⟨i1, i2⟩

theorem fits : FitsBuffer askOffset 1 ownName ∧ FitsBuffer askFetch 2 ownName ∧ FitsBuffer askCommitOne 3 ownName ∧ FitsBuffer askOffset 4 ownName := by
  unfold FitsBuffer; decide +kernel

/-- The responses, with their sizes. -/
def offsetReply : Bytes := (got 0 readsTr).take 35
def fetchReply : Bytes := (got 0 readsTr).drop 35
def laterReply : Bytes := got 1 (readsTr ++ followsTr)

/-- What the member reads in the response to its Fetch. -/
def theMessage : MessageV1 := ⟨0, 36, 0x2a52149a#32, 1, 0, 0, none, some [1, 2]⟩

set_option maxRecDepth 100000 in
theorem offsetReply_read : Client.response Client.offsetFetch offsetReply = some ((1, ⟨[⟨[116], [⟨0, 0, none, 0⟩]⟩]⟩), []) := by decide +kernel

set_option maxRecDepth 100000 in
theorem laterReply_read : Client.response Client.offsetFetch laterReply = some ((4, ⟨[⟨[116], [⟨0, 1, none, 0⟩]⟩]⟩), []) := by decide +kernel

set_option synthInstance.maxSize 1000 in
set_option maxRecDepth 100000 in
theorem fetchReply_read : Client.response Client.fetch fetchReply = some ((2, 0, [([116], [⟨0, 0, 1, [theMessage]⟩])]), []) := by decide +kernel

set_option maxRecDepth 100000 in
theorem first_poll : (Poll.mk 0 1 [theMessage]).Seen readsTr [116] 0 0 := by
  refine .mk (msg := askFetch.message 2 ownName) (r := fetchReply.drop 4) (j := 0) (by rw [readsTr_asked]; rfl) (accepted_proper askFetch_wf _ ownName_short) fits.2.1 ?_ rfl
    (by decide +kernel) (by decide +kernel) (framed_of (by decide +kernel) (by decide +kernel)) fetchReply_read rfl rfl
  intro t ht
  simp only [List.mem_singleton] at ht
  exact ⟨_, by rw [ht]⟩

set_option maxRecDepth 100000 in
/-- The first member's session, before it has sent its commit. -/
theorem first_session : GroupSession readsTr [103] [116] 0 0 [⟨0, 1, [theMessage]⟩] :=
  .mk (msg := askOffset.message 1 ownName) (c := 0) (i := 0) (r := offsetReply.drop 4) (by rw [readsTr_asked]; rfl) (accepted_proper askOffset_wf _ ownName_short) fits.1 rfl
    (by decide +kernel) (framed_of (by decide +kernel) (by decide +kernel)) offsetReply_read List.mem_cons_self rfl List.mem_cons_self rfl rfl (.more .none first_poll)

set_option maxRecDepth 100000 in
/-- The second member's session: it has read the offset and has fetched nothing yet. -/
theorem second_session : GroupSession (readsTr ++ followsTr) [103] [116] 0 1 [] :=
  .mk (msg := askOffset.message 4 ownName) (c := 1) (i := 0) (r := laterReply.drop 4) (by rw [followsTr_asked_too]; rfl) (accepted_proper askOffset_wf _ ownName_short) fits.2.2.2 rfl
    (by decide +kernel) (framed_of (by decide +kernel) (by decide +kernel)) laterReply_read List.mem_cons_self rfl List.mem_cons_self rfl rfl .none

/-- A message that is another request is no OffsetCommit request. -/
theorem CommitSent.is {tr : List NEv} {c i : Nat} {t g : Bytes} {p : I32} {o : I64} (h : CommitSent tr c i t p g o) {req : Request} {corr : I32} {m : Bytes}
    (hm : (frames (asked c tr))[i]? = some m) (ha : Accepted req corr ownName m) (hb : FitsBuffer req corr ownName) :
    ∃ q : CommitRequest, req = .offsetCommit q ∧ ∃ qt ∈ q.topics, ∃ qp ∈ qt.partitions, qp.committedOffset = o := by
  obtain ⟨hm', ha', hb', hg, ht, hn, hp, hi, ho⟩ := h
  rw [hm] at hm'
  obtain ⟨e, _⟩ := C103_unambiguous (e' := []) ha' hb' ha hb ((Option.some.inj hm').symm.trans (List.append_nil _).symm)
  exact ⟨_, e.symm, _, ht, _, hp, ho⟩

set_option maxRecDepth 100000 in
theorem commits_received : CommitsReceived (readsTr ++ followsTr) [103] [116] 0 := by
  intro u v huv c i o h
  have all := h.more v
  rw [← huv] at all
  -- the message is the third of the first client
  have h3 : c = 0 ∧ i = 2 ∧ o = 1 := by
    by_cases h0 : c = 0
    · subst h0
      refine ⟨rfl, ?_⟩
      match i, all with
      | 0, all =>
        obtain ⟨q, hq, _⟩ := all.is (by rw [followsTr_asked]; rfl) (accepted_proper askOffset_wf _ ownName_short) fits.1
        cases hq
      | 1, all =>
        obtain ⟨q, hq, _⟩ := all.is (by rw [followsTr_asked]; rfl) (accepted_proper askFetch_wf _ ownName_short) fits.2.1
        cases hq
      | 2, all =>
        obtain ⟨q, hq, qt, h1, qp, h2, h3⟩ := all.is (by rw [followsTr_asked]; rfl) (accepted_proper askCommitOne_wf _ ownName_short) fits.2.2.1
        cases hq
        cases List.mem_singleton.1 h1
        cases List.mem_singleton.1 h2
        exact ⟨rfl, h3.symm⟩
      | i + 3, ⟨hm, _, _, _, _, _, _, _, _⟩ => rw [followsTr_asked] at hm; cases hm
    · by_cases h1 : c = 1
      · subst h1
        match i, all with
        | 0, all =>
          obtain ⟨q, hq, _⟩ := all.is (by rw [followsTr_asked_too]; rfl) (accepted_proper askOffset_wf _ ownName_short) fits.2.2.2
          cases hq
        | i + 1, ⟨hm, _, _, _, _, _, _, _, _⟩ => rw [followsTr_asked_too] at hm; cases hm
      · obtain ⟨hm, _, _, _, _, _, _, _, _⟩ := all
        rw [(two_others follows_two h0 h1).1] at hm
        cases hm
  obtain ⟨rfl, rfl, rfl⟩ := h3
  rcases List.append_eq_append_iff.1 huv with ⟨z, rfl, _⟩ | ⟨z, h1, _⟩
  · exact ⟨0, _, first_session.more z, by decide +kernel⟩
  · -- it had not been sent
    have := h.more z
    rw [← h1] at this
    obtain ⟨hm, _, _, _, _, _, _, _, _⟩ := this
    rw [readsTr_asked] at hm
    cases hm

/-- No test sets the group's offset. -/
def notSetting : NEv → Bool
  | .mock (.life (.api _ (.setConsumerGroupOffset ..))) => false
  | _ => true

set_option maxRecDepth 100000 in
theorem not_set : NotSet ⟨9092, []⟩ 0 (readsTr ++ followsTr) [103] [116] 0 := by
  rintro k i m o n0 ⟨ht, _, _, _⟩
  have h : (readsTr ++ followsTr).all notSetting = true := by decide +kernel
  have := List.all_eq_true.1 h (.mock (.life (.api i (.setConsumerGroupOffset [116] m [103] o)))) (by rw [ht]; simp)
  cases this

set_option maxRecDepth 100000 in
theorem follows_small (c : Nat) : SmallReplies ⟨9092, []⟩ (actsOf c (mocks (readsTr ++ followsTr))) := by
  by_cases h0 : c = 0
  · subst h0; exact smallReplies_check follows_run 0 (by decide +kernel)
  · by_cases h1 : c = 1
    · subst h1; exact smallReplies_check follows_run 1 (by decide +kernel)
    · rw [(two_others follows_two h0 h1).2]
      intro l1 m l2 l3 c payload e
      exact absurd e (by simp)

set_option maxRecDepth 100000 in
theorem follows_records : ∀ t p, ∀ x ∈ (followsNet.sys.view 0).log t p, wireSize x < 2 ^ 31 :=
  (roomy_of (k := 0) (tr := []) (s2 := followsNet.sys) (by decide +kernel) (by decide)).records

set_option maxRecDepth 100000 in
theorem follows_log : ((followsNet.sys.view 0).log [116] 0).length = 1 := by decide +kernel

/-- The hypotheses of `C111` (and of `C111_committed`), and what the theorem says of the second member: the record before its place has been received, by the first. -/
example : CommitsReceived (readsTr ++ followsTr) [103] [116] 0 ∧ NotSet ⟨9092, []⟩ 0 (readsTr ++ followsTr) [103] [116] 0 ∧ GroupSession (readsTr ++ followsTr) [103] [116] 0 1 [] ∧
    MemberGot (readsTr ++ followsTr) ((followsNet.sys.view 0).log [116] 0) [103] [116] 0 0 :=
  ⟨commits_received, not_set, second_session,
    (C111 follows_run follows_records follows_small (by rw [follows_log]; decide) commits_received not_set second_session).2.2 0 (by decide)⟩

/-- The hypotheses of `C110_offset_read`, where the offset is one that a client has sent; and of `C110_read`. -/
example : OffsetGiven ⟨9092, []⟩ 0 (readsTr ++ followsTr) [116] 0 [103] 1 ∧ (Poll.mk 0 1 [theMessage]).Seen (readsTr ++ followsTr) [116] 0 0 ∧
    SmallReplies ⟨9092, []⟩ (actsOf 0 (mocks (readsTr ++ followsTr))) ∧ ((followsNet.sys.view 0).log [116] 0).length < 2 ^ 63 := by
  refine ⟨?_, first_poll.more _, follows_small 0, by rw [follows_log]; decide⟩
  obtain ⟨hm, ha, hb, hg, hr, hf, hd, ht, hn, hp, hi, ho, _⟩ := second_session
  obtain ⟨u, v, e1, _, e2⟩ := C110_offset_read follows_run (follows_small _) hm ha hb hr hf hd
  have := e2 _ ht _ hp
  rw [hn, hi, hg, ho] at this
  rw [e1]
  refine ⟨?_, nofun⟩
  rcases this.1 with h | ⟨c, i, h⟩ | h
  · exact absurd h (by decide)
  · exact .inr (.inl ⟨c, i, h.more v⟩)
  · exact .inr (.inr (h.more v))

end KM.Props
