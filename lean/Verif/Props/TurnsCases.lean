import Verif.Props.Turns
import Verif.Props.LeastCases
/-
C112: a run in which a test posts a record, a client asks for an offset, fetches and commits, and another client asks for the offset, each after the other has been answered.
-/
namespace KM.Props
open KM KM.Spec

/-- The mock starts and two clients connect. -/
def turn0 : List NPick := (starts 0 ++ opens 0 ++ accepts 0 ++ accepts 0).map .mock
/-- A test posts a record. -/
def turn1 : List NPick := (caller 1 postOne 5).map .mock
/-- The call returns; a client asks for an offset. -/
def turn2 : List NPick := (caller 1 .start 1).map .mock ++ asksFor 0 askOffset 1 13 ++ [.receive 0 1000]
/-- It fetches. -/
def turn3 : List NPick := asksFor 0 askFetch 2 14 ++ [.receive 0 30, .receive 0 1000]
/-- It commits. -/
def turn4 : List NPick := asksFor 0 askCommitOne 3 10 ++ [.receive 0 1000]
/-- Another client asks for the offset. -/
def turn5 : List NPick := asksFor 1 askOffset 4 13 ++ [.receive 1 1000]

def net0 : Net := netAfter turn0 (Net.new ⟨9092, []⟩ 0)
def net1 : Net := netAfter turn1 net0
def net2 : Net := netAfter turn2 net1
def net3 : Net := netAfter turn3 net2
def net4 : Net := netAfter turn4 net3
def net5 : Net := netAfter turn5 net4

def tr0 : List NEv := [] ++ netEvents turn0 (Net.new ⟨9092, []⟩ 0)
/-- What happens during the call, after the call itself. -/
def tr1' : List NEv := (netEvents turn1 net0).tail
def tr1 : List NEv := tr0 ++ .mock (.life (.api 1 postOne)) :: tr1'
def tr2 : List NEv := tr1 ++ netEvents turn2 net1
def tr3 : List NEv := tr2 ++ netEvents turn3 net2
def tr4 : List NEv := tr3 ++ netEvents turn4 net3
def tr5 : List NEv := tr4 ++ netEvents turn5 net4

/-- No call but those that do not work on the data. -/
def quiet : NEv → Bool
  | .mock (.life (.api _ c)) => !(Call.onData c)
  | _ => true

theorem noCalls_of {tr : List NEv} (h : tr.all quiet = true) : NoCalls tr := by
  intro i c hm
  have := List.all_eq_true.1 h _ hm
  simpa [quiet] using this

theorem noMessage_of {tr tb : List NEv} (h : (tr ++ tb).all onlyTwo = true) {d : Nat} (h0 : d = 0 → NoMessage tr tb 0) (h1 : d = 1 → NoMessage tr tb 1) : NoMessage tr tb d := by
  by_cases e0 : d = 0
  · subst e0; exact h0 rfl
  · by_cases e1 : d = 1
    · subst e1; exact h1 rfl
    · unfold NoMessage
      rw [(two_others h e0 e1).1]
      exact Nat.zero_le _

instance {tr tb : List NEv} {d : Nat} : Decidable (NoMessage tr tb d) := inferInstanceAs (Decidable (_ ≤ _))

/-- The responses, with their sizes. -/
def reply2 : Bytes := got 0 tr2
def reply3 : Bytes := (got 0 tr3).drop (got 0 tr2).length
def reply4 : Bytes := (got 0 tr4).drop (got 0 tr3).length
def reply5 : Bytes := got 1 tr5

def postHappens : Happening := .posted ⟨[116], 0, none, some [1, 2], none⟩
def turns : List Happening := [postHappens, .answered askOffset 1 reply2, .answered askFetch 2 reply3, .answered askCommitOne 3 reply4, .answered askOffset 4 reply5]

set_option maxRecDepth 100000 in
theorem turn_wait : OneAtATime ⟨9092, []⟩ 0 tr0 net0 [] :=
  .wait .new (netAfter_run _ _) (noCalls_of (by decide +kernel)) fun _ => noMessage_of (by decide +kernel) (fun _ => by decide +kernel) (fun _ => by decide +kernel)

set_option maxRecDepth 100000 in
theorem turn_post : OneAtATime ⟨9092, []⟩ 0 tr1 net1 [postHappens] := by
  have e : netEvents turn1 net0 = .mock (.life (.api 1 postOne)) :: tr1' := rfl
  have hr : Net.Run net0 (.mock (.life (.api 1 postOne)) :: tr1') net1 := by rw [← e]; exact netAfter_run _ _
  refine .call (l := []) turn_wait rfl rfl hr (noCalls_of (by decide +kernel)) ?_ rfl fun _ => noMessage_of (by decide +kernel) (fun _ => by decide +kernel) (fun _ => by decide +kernel)
  intro c' hm
  have h : (tr1'.all fun e => match e with | .mock (.life (.api ..)) => false | _ => true) = true := by decide +kernel
  exact absurd (List.all_eq_true.1 h _ hm) nofun

set_option maxRecDepth 100000 in
theorem turn_offset : OneAtATime ⟨9092, []⟩ 0 tr2 net2 [postHappens, .answered askOffset 1 reply2] :=
  .request (l := [postHappens]) (c := 0) (client := ownName) (m := askOffset.message 1 ownName) (r := reply2.drop 4) turn_post (netAfter_run _ _) (noCalls_of (by decide +kernel))
    (fun _ hd => noMessage_of (by decide +kernel) (fun h => absurd h hd) (fun _ => by decide +kernel)) (by decide +kernel) (by decide +kernel) (accepted_proper askOffset_wf _ ownName_short) fits.1
    (by decide +kernel) (by decide +kernel) (framed_of (by decide +kernel) (by decide +kernel))

set_option maxRecDepth 100000 in
theorem turn_fetch : OneAtATime ⟨9092, []⟩ 0 tr3 net3 [postHappens, .answered askOffset 1 reply2, .answered askFetch 2 reply3] :=
  .request (l := [postHappens, .answered askOffset 1 reply2]) (c := 0) (client := ownName) (m := askFetch.message 2 ownName) (r := reply3.drop 4) turn_offset (netAfter_run _ _)
    (noCalls_of (by decide +kernel)) (fun _ hd => noMessage_of (by decide +kernel) (fun h => absurd h hd) (fun _ => by decide +kernel)) (by decide +kernel) (by decide +kernel)
    (accepted_proper askFetch_wf _ ownName_short) fits.2.1 (by decide +kernel) (by decide +kernel) (framed_of (by decide +kernel) (by decide +kernel))

set_option maxRecDepth 100000 in
theorem turn_commit : OneAtATime ⟨9092, []⟩ 0 tr4 net4 [postHappens, .answered askOffset 1 reply2, .answered askFetch 2 reply3, .answered askCommitOne 3 reply4] :=
  .request (l := [postHappens, .answered askOffset 1 reply2, .answered askFetch 2 reply3]) (c := 0) (client := ownName) (m := askCommitOne.message 3 ownName) (r := reply4.drop 4) turn_fetch
    (netAfter_run _ _) (noCalls_of (by decide +kernel)) (fun _ hd => noMessage_of (by decide +kernel) (fun h => absurd h hd) (fun _ => by decide +kernel)) (by decide +kernel) (by decide +kernel)
    (accepted_proper askCommitOne_wf _ ownName_short) fits.2.2.1 (by decide +kernel) (by decide +kernel) (framed_of (by decide +kernel) (by decide +kernel))

set_option maxRecDepth 100000 in
theorem turn_other : OneAtATime ⟨9092, []⟩ 0 tr5 net5 turns :=
  .request (l := [postHappens, .answered askOffset 1 reply2, .answered askFetch 2 reply3, .answered askCommitOne 3 reply4]) (c := 1) (client := ownName) (m := askOffset.message 4 ownName)
    (r := reply5.drop 4) turn_commit (netAfter_run _ _) (noCalls_of (by decide +kernel)) (fun _ hd => noMessage_of (by decide +kernel) (fun _ => by decide +kernel) (fun h => absurd h hd))
    (by decide +kernel) (by decide +kernel) (accepted_proper askOffset_wf _ ownName_short) fits.2.2.2 (by decide +kernel) (by decide +kernel) (framed_of (by decide +kernel) (by decide +kernel))

set_option maxRecDepth 100000 in
theorem turns_two : tr5.all onlyTwo = true := by decide +kernel

set_option maxRecDepth 100000 in
theorem turns_small (c : Nat) : SmallReplies ⟨9092, []⟩ (actsOf c (mocks tr5)) := by
  by_cases h0 : c = 0
  · subst h0; exact smallReplies_check turn_other.run 0 (by decide +kernel)
  · by_cases h1 : c = 1
    · subst h1; exact smallReplies_check turn_other.run 1 (by decide +kernel)
    · rw [(two_others turns_two h0 h1).2]
      intro l1 m l2 l3 c payload e
      exact absurd e (by simp)

set_option maxRecDepth 100000 in
theorem turns_records : ∀ t p, ∀ x ∈ (net5.sys.view 0).log t p, wireSize x < 2 ^ 31 :=
  (roomy_of (k := 0) (tr := []) (s2 := net5.sys) (by decide +kernel) (by decide)).records

set_option maxRecDepth 100000 in
theorem turns_names : ∀ t, (net5.sys.view 0).hasTopic t → ShortStr t := by
  intro t ht
  have h : (net5.sys.view 0).ds.all (fun x => x.1 == [116]) = true := by decide +kernel
  unfold World.hasTopic at ht
  generalize (net5.sys.view 0).ds = m at h ht
  induction m with
  | nil => cases ht
  | cons x m ih =>
    simp only [List.all_cons, Bool.and_eq_true, beq_iff_eq] at h
    unfold GoMap.get at ht
    split at ht
    · rename_i e
      rw [← e, h.1]
      unfold ShortStr; decide
    · exact ih h.2 ht

/-- The hypotheses of `C112`, and what it says of this run: the last client has read the offset that the first had committed, as the sequential machine requires. -/
example : ∃ us, List.Forall₂ Received turns us ∧ Behaves Data.empty 0 us (data net5.sys) net5.sys.clock := C112 turn_other turns_records turns_names turns_small

set_option maxRecDepth 100000 in
example : Client.response Client.offsetFetch reply5 = some ((4, ⟨[⟨[116], [⟨0, 1, none, 0⟩]⟩]⟩), []) := by decide +kernel

end KM.Props
