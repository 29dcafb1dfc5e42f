import Verif.Props.NoneLost
import Verif.Props.TallyCases
/-
C132: the run of C113. The first member of the group fetches the first record, commits, and is not heard of again; the second member begins behind that record and fetches the second one.
-/
namespace KM.Props
open KM KM.Spec

theorem group_first : GroupSession tr3 [103] [116] 0 0 [⟨0, 1, [theMessage]⟩] := by
  obtain ⟨hm, ha, hb, hg, hr, hf, hd, ht, hname, hp, hi, ho⟩ := relay_first
  refine .mk (c := 0) (i := 0) ?_ ha hb hg ?_ hf hd ht hname hp hi ho (.more .none relay_poll)
  · rw [show tr3 = tr2 ++ netEvents turn3 net2 from rfl, asked_append]; exact frame_more hm
  · rw [show tr3 = tr2 ++ netEvents turn3 net2 from rfl, got_append]; exact frame_more hr

theorem group_second : GroupSession tr6 [103] [116] 0 1 ([] ++ [⟨1, 1, [anotherMessage]⟩]) := by
  obtain ⟨hm, ha, hb, hg, hr, hf, hd, ht, hname, hp, hi, ho⟩ := relay_second
  refine .mk (c := 1) (i := 0) ?_ ha hb hg ?_ hf hd ht hname hp hi ho (.more .none relay_poll_too)
  · rw [show tr6 = tr5 ++ netEvents turn6 net5 from rfl, asked_append]; exact frame_more hm
  · rw [show tr6 = tr5 ++ netEvents turn6 net5 from rfl, got_append]; exact frame_more hr

set_option maxRecDepth 100000 in
theorem group_asked : frames (asked 0 tr3) = [askOffset.message 1 ownName, askFetch.message 2 ownName] ∧
    frames (asked 0 tr6) = [askOffset.message 1 ownName, askFetch.message 2 ownName, askCommitOne.message 3 ownName] := by decide +kernel

theorem group_commits : CommitsReceived tr6 [103] [116] 0 := by
  intro u v huv c i o h
  have all := h.more v
  rw [← huv] at all
  have h3 : c = 0 ∧ i = 2 ∧ o = 1 := by
    by_cases h0 : c = 0
    · subst h0
      refine ⟨rfl, ?_⟩
      match i, all with
      | 0, all =>
        obtain ⟨q, hq, _⟩ := all.is (by rw [group_asked.2]; rfl) (accepted_proper askOffset_wf _ ownName_short) fits.1
        cases hq
      | 1, all =>
        obtain ⟨q, hq, _⟩ := all.is (by rw [group_asked.2]; rfl) (accepted_proper askFetch_wf _ ownName_short) fits.2.1
        cases hq
      | 2, all =>
        obtain ⟨q, hq, qt, h1, qp, h2, h3⟩ := all.is (by rw [group_asked.2]; rfl) (accepted_proper askCommitOne_wf _ ownName_short) fits.2.2.1
        cases hq
        cases List.mem_singleton.1 h1
        cases List.mem_singleton.1 h2
        exact ⟨rfl, h3.symm⟩
      | i + 3, ⟨hm, _, _, _, _, _, _, _, _⟩ => rw [group_asked.2] at hm; cases hm
    · by_cases h1 : c = 1
      · subst h1
        match i, all with
        | 0, all =>
          obtain ⟨q, hq, _⟩ := all.is (by rw [relay_asked.2.2.2]; rfl) (accepted_proper askOffset_wf _ ownName_short) fits.2.2.2
          cases hq
        | 1, all =>
          obtain ⟨q, hq, _⟩ := all.is (by rw [relay_asked.2.2.2]; rfl) (accepted_proper askNext_wf _ ownName_short) relay_fits
          cases hq
        | i + 2, ⟨hm, _, _, _, _, _, _, _, _⟩ => rw [relay_asked.2.2.2] at hm; cases hm
      · obtain ⟨hm, _, _, _, _, _, _, _, _⟩ := all
        rw [(two_others relay_two h0 h1).1] at hm
        cases hm
  obtain ⟨rfl, rfl, rfl⟩ := h3
  rw [show tr6 = tr3 ++ (netEvents turn4 net3 ++ (netEvents turn5 net4 ++ netEvents turn6 net5)) by simp [tr6, tr5, tr4]] at huv
  rcases List.append_eq_append_iff.1 huv with ⟨z, rfl, _⟩ | ⟨z, h1, _⟩
  · exact ⟨0, _, group_first.more z, by decide +kernel⟩
  · have := h.more z
    rw [← h1] at this
    obtain ⟨hm, _, _, _, _, _, _, _, _⟩ := this
    rw [group_asked.1] at hm
    cases hm

set_option maxRecDepth 100000 in
/-- The hypotheses of `C132`, and what the theorem says of the run: a member of the group has received the message of the first call, event number 27. -/
example : ∃ start ps y, GroupSession tr6 [103] [116] 0 start ps ∧ y ∈ pollMessages ps ∧ MessageOf members.st members.ev membersPicks.length [116] 0 27 y := by
  have e := members_events
  obtain ⟨ks, _, h⟩ := C132 members_listed (m := membersPicks.length - 19) (Nat.sub_le _ _) members_room (g := [103]) (t := [116]) (p := 0) (by rw [e]; exact relay_small)
    (by rw [members_log]; decide) (by rw [e]; exact group_commits) (by rw [e]; exact relay_not_set) (by rw [e]; exact group_second) (Nat.le_of_eq members_late)
  obtain ⟨start, ps, y, h1, h2, _, h3⟩ := h 27 1 firstPost ⟨rfl, rfl, rfl, rfl⟩ ⟨104, by decide, by decide, .inr rfl⟩
  rw [e] at h1
  exact ⟨start, ps, y, h1, h2, h3⟩

end KM.Props
