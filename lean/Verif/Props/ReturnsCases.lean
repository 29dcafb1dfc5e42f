import Verif.Props.Returns
import Verif.Props.ForeverCases
/-
C137: calls that return.
-/
namespace KM.Props
open KM KM.Spec

/-- Caller 1 is in the middle of a post. -/
def halfPosted : Sys := stateAfter (caller 1 (.simplePost [116] 0 none (some [2])) 3) (Sys.new ⟨9092, []⟩ 0)

/-- Then caller 0 has called `c` and made `n` actions; the other one acts in between and at the end. -/
def callPicks (c : Call) (n : Nat) : List Pick := caller 0 c (min n 1) ++ caller 1 .start 1 ++ caller 0 c (n - 1) ++ caller 1 .start 2

/-- The caller is out of the call. -/
def isOut (s : Sys) (i : Nat) : Bool := match s.api i with
  | .idle => true
  | _ => false

def fourCalls : List Call := [.simplePost [116] 0 none (some [1]), .extendedPost [116] 0 none (some [1]) [([5], some [6])] 7000000, .createPartitionTopics 3 [[116], [117], [118]], .setConsumerGroupOffset [116] 0 [103] 1]

set_option maxRecDepth 100000 in
/-- The hypotheses of `C137_steps`, and that the numbers are exact: each of the functions has returned after as many actions, and not before. -/
example : ∀ c ∈ fourCalls, ∃ (b : Nat) (s1 : Sys) (tr tr' : List SEv) (s s' : Sys), mostOf c = some b ∧ halfPosted.api 0 = .idle ∧ Sys.Step halfPosted (.life (.api 0 c)) s1 ∧
    Sys.Run s1 tr s ∧ tr.countP (byCaller 0) = b ∧ isOut s 0 = true ∧ Sys.Run s1 tr' s' ∧ tr'.countP (byCaller 0) = b - 1 ∧ isOut s' 0 = false := by
  have gen : ∀ (c : Call) (b : Nat), mostOf c = some b → ((eventsOf (callPicks c b) (halfPosted.setApi 0 c.entry)).countP (byCaller 0) = b ∧ isOut (stateAfter (callPicks c b) (halfPosted.setApi 0 c.entry)) 0 = true) ∧
      (eventsOf (callPicks c (b - 1)) (halfPosted.setApi 0 c.entry)).countP (byCaller 0) = b - 1 ∧ isOut (stateAfter (callPicks c (b - 1)) (halfPosted.setApi 0 c.entry)) 0 = false →
      ∃ (b : Nat) (s1 : Sys) (tr tr' : List SEv) (s s' : Sys), mostOf c = some b ∧ halfPosted.api 0 = .idle ∧ Sys.Step halfPosted (.life (.api 0 c)) s1 ∧
        Sys.Run s1 tr s ∧ tr.countP (byCaller 0) = b ∧ isOut s 0 = true ∧ Sys.Run s1 tr' s' ∧ tr'.countP (byCaller 0) = b - 1 ∧ isOut s' 0 = false :=
    fun c b hb ⟨⟨h1, h2⟩, h3, h4⟩ => ⟨b, halfPosted.setApi 0 c.entry, _, _, _, _, hb, rfl, .life rfl, stateAfter_run .., h1, h2, stateAfter_run .., h3, h4⟩
  intro c hc
  simp only [fourCalls, List.mem_cons, List.not_mem_nil, or_false] at hc
  rcases hc with rfl | rfl | rfl | rfl
  · exact gen _ 5 rfl (by decide +kernel)
  · exact gen _ 5 rfl (by decide +kernel)
  · exact gen _ 7 rfl (by decide +kernel)
  · exact gen _ 4 rfl (by decide +kernel)

/-- The hypotheses of `C137` and `C136_settled`, and what the theorems say of the run: the call returns; the consumer receives one message, which comes from event number 20, and nothing more. -/
example : ∃ (ns : Nat → Net) (es : Nat → NEv) (K N : Nat), (∃ m, ReturnsAt (sysOf ns) 1 20 m) ∧ List.Forall₂ (MessageOf ns es N [116] 0) [20] ((List.range K).flatMap pollGets) ∧
    ∀ i, K ≤ i → pollGets i = [] := by
  obtain ⟨ns, es, sa, tc, h1, h2, h3, h4, _, h6, _, h8, h9, h10⟩ := small_case
  have hpost : PostAt ns es [116] 0 20 1 firstPost := ⟨by rw [h9 20 (by decide)]; rfl, by rw [h8 20 (by decide)]; rfl, rfl, rfl⟩
  have hall : ∀ k, k ∈ [20] ↔ ∃ i call, PostAt ns es [116] 0 k i call := by
    refine fun k => ⟨fun hk => by cases List.mem_singleton.1 hk; exact ⟨1, firstPost, hpost⟩, ?_⟩
    rintro ⟨i, call, hpa⟩
    have hlt : k < 46 := Nat.lt_of_not_le fun hk => by
      have hq := List.all_eq_true.1 poll_quiet _ (List.mem_range.2 (Nat.mod_lt (k - 46) (show 0 < 18 by decide)))
      rw [← h10 k hk, hpa.event] at hq
      cases hq
    have := List.all_eq_true.1 served_posts k (List.mem_range.2 hlt)
    rw [← h9 k hlt, hpa.event] at this
    have hid := hpa.idle
    rw [h8 k (by omega)] at hid
    unfold PostCall.call at this
    split at this <;> simpa [postsAt, hid] using this
  obtain ⟨K, N, ks, k1, k2, k3⟩ := C136_settled (B := 1000) (calls := [20]) h1 (by decide) h2 h3 h4 h6 (by decide) hall
  rw [List.perm_singleton.1 k1] at k2
  exact ⟨ns, es, K, N, C137 h1.endless ⟨hpost.idle, by unfold evOf; rw [hpost.event]; rfl⟩ rfl, k2, k3⟩

end KM.Props
