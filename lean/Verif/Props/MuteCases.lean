import Verif.Props.Mute
import Verif.Props.LeastCases
/-
C120: the run of C110 and C111 without its second member.
-/
namespace KM.Props
open KM KM.Spec

/-- The second member of the group has sent no OffsetCommit request. -/
theorem second_looks (c : Nat) (hq : (c == 1) = true) (i : Nat) (t : Bytes) (p : I32) (g : Bytes) (o : I64) : ¬ CommitSent (readsTr ++ followsTr) c i t p g o := by
  intro h
  cases beq_iff_eq.1 hq
  match i, h with
  | 0, h =>
    obtain ⟨q, hq, _⟩ := h.is (by rw [followsTr_asked_too]; rfl) (accepted_proper askOffset_wf _ ownName_short) fits.2.2.2
    cases hq
  | i + 1, ⟨hm, _, _, _, _, _, _, _, _⟩ => rw [followsTr_asked_too] at hm; cases hm

set_option maxRecDepth 100000 in
/-- The second member asks for an offset and gets it; the first member gets the same bytes in a run in which the second says nothing, and its commit is stored. -/
example : asked 1 (readsTr ++ followsTr) ≠ [] ∧ got 1 (readsTr ++ followsTr) ≠ [] ∧
    ∃ tr' n', Net.Run (Net.new ⟨9092, []⟩ 0) tr' n' ∧ asked 1 tr' = [] ∧ got 1 tr' = [] ∧ got 0 tr' = got 0 (readsTr ++ followsTr) ∧ (n'.sys.view 0).committed [116] 0 [103] = 1 := by
  refine ⟨by decide +kernel, by decide +kernel, ?_⟩
  obtain ⟨tr', n', h1, _, h2, h3, _, h4, _⟩ := C120 follows_run (· == 1) second_looks
  exact ⟨tr', n', h1, (h2 1 rfl).1, (h2 1 rfl).2, (h3 0 rfl).2, (h4 _ _ _).trans (by decide +kernel)⟩

theorem acts_besides {Q : Nat → Bool} {c : Nat} (hq : Q c = false) (tr : List NEv) : actsOf c (mocks (besides Q tr)) = actsOf c (mocks tr) := by
  induction tr with
  | nil => rfl
  | cons e tr ih =>
    rw [show e :: tr = [e] ++ tr from rfl, besides_append, mocks_append, mocks_append, actsOf_append, actsOf_append, ih]
    congr 1
    cases e with
    | send d b => cases hd : Q d <;> simp [besides, hd, mocks]
    | receive d b => cases hd : Q d <;> simp [besides, hd, mocks]
    | mock e =>
      cases e with
      | conn d a r =>
        by_cases e : d = c
        · subst e; simp [besides, hq]
        · cases hd : Q d <;> simp [besides, hd, mocks, actsOf, e]
      | unroll d => cases hd : Q d <;> simp [besides, hd, mocks, actsOf]
      | tick x => simp [besides, mocks, actsOf]
      | _ => simp [besides]

set_option maxRecDepth 100000 in
/-- **C120**, why it says "no OffsetCommit request": the first member has sent one, and there is no run in which it says nothing and everything else happens as in this one, for the second member has
received an offset that the first has sent. -/
theorem C120_commits : ¬ ∃ tr' n', Net.Run (Net.new ⟨9092, []⟩ 0) tr' n' ∧ besides (· == 0) tr' = besides (· == 0) (readsTr ++ followsTr) ∧ asked 0 tr' = [] := by
  rintro ⟨tr', n', h, hb, h0⟩
  have same : ∀ c, c ≠ 0 → asked c tr' = asked c (readsTr ++ followsTr) ∧ got c tr' = got c (readsTr ++ followsTr) ∧ actsOf c (mocks tr') = actsOf c (mocks (readsTr ++ followsTr)) := by
    intro c hc
    have hq : (c == 0) = false := by simp [hc]
    exact ⟨(asked_besides (Q := (· == 0)) hq tr').symm.trans ((congrArg (asked c) hb).trans (asked_besides (Q := (· == 0)) hq _)), (got_besides (Q := (· == 0)) hq tr').symm.trans ((congrArg (got c) hb).trans (got_besides (Q := (· == 0)) hq _)),
      (acts_besides (Q := (· == 0)) hq tr').symm.trans ((congrArg (fun x => actsOf c (mocks x)) hb).trans (acts_besides (Q := (· == 0)) hq _))⟩
  obtain ⟨s1, s2, s3⟩ := same 1 (by decide)
  obtain ⟨u, v, e1, _, e2⟩ := C110_offset_read (c := 1) (i := 0) (r := laterReply.drop 4) h (by rw [s3]; exact follows_small 1) (by rw [s1, followsTr_asked_too]; rfl)
    (accepted_proper askOffset_wf _ ownName_short) fits.2.2.2 (by rw [s2]; decide +kernel) (framed_of (by decide +kernel) (by decide +kernel)) laterReply_read
  rcases (e2 _ List.mem_cons_self _ List.mem_cons_self).1 with k | ⟨c, i, k⟩ | ⟨k, i, m, n0, k, _⟩
  · exact absurd k (by decide)
  · replace k := k.more v
    rw [← e1] at k
    by_cases c0 : c = 0
    · obtain ⟨hm, _, _, _, _, _, _, _, _⟩ := k
      rw [c0, h0] at hm
      cases hm
    · by_cases c1 : c = 1
      · subst c1
        match i, k with
        | 0, k =>
          obtain ⟨q, hq, _⟩ := k.is (by rw [s1, followsTr_asked_too]; rfl) (accepted_proper askOffset_wf _ ownName_short) fits.2.2.2
          cases hq
        | i + 1, ⟨hm, _, _, _, _, _, _, _, _⟩ => rw [s1, followsTr_asked_too] at hm; cases hm
      · obtain ⟨hm, _, _, _, _, _, _, _, _⟩ := k
        rw [(same c c0).1, (two_others follows_two c0 c1).1] at hm
        cases hm
  · replace k := k.more v
    rw [← e1] at k
    obtain ⟨ht, _, _, _⟩ := k
    have hall : (readsTr ++ followsTr).all notSetting = true := by decide +kernel
    have hmem : ∀ o : I64, ∀ m g t, NEv.mock (.life (.api i (.setConsumerGroupOffset t m g o))) ∈ tr' → False := by
      intro o m g t hx
      have : NEv.mock (.life (.api i (.setConsumerGroupOffset t m g o))) ∈ besides (· == 0) tr' := List.mem_filter.2 ⟨hx, rfl⟩
      rw [hb] at this
      cases List.all_eq_true.1 hall _ (List.mem_filter.1 this).1
    exact hmem _ _ _ _ (by rw [ht]; exact List.mem_append_right _ List.mem_cons_self)

end KM.Props
