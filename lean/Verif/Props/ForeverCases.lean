import Verif.Props.Forever
import Verif.Props.SmallCases
/-
C136: a record is posted, and a client fetches for ever.
-/
namespace KM.Props
open KM KM.Spec

/-- Only event 20 calls a function that posts. -/
def postsAt (n : Net) (k : Nat) : NEv → Bool
  | .mock (.life (.api i (.simplePost ..))) | .mock (.life (.api i (.extendedPost ..))) =>
    match n.sys.api i with
    | .idle => k == 20
    | _ => true
  | _ => true

set_option maxRecDepth 100000 in
theorem served_posts : ((List.range 46).all fun k => postsAt (servedRun.st k) k (servedRun.ev k)) = true := by decide +kernel

/-- The hypotheses of `C136` and `C136_over`, and what the theorems say of the run: the consumer receives one message, which comes from event number 20, and nothing more. -/
example : ∃ (ns : Nat → Net) (es : Nat → NEv) (K N : Nat), List.Forall₂ (MessageOf ns es N [116] 0) [20] ((List.range K).flatMap pollGets) ∧ ∀ i, K ≤ i → pollGets i = [] := by
  obtain ⟨ns, es, sa, tc, h1, h2, h3, h4, _, h6, _, h8, h9, h10⟩ := small_case
  have hall : ∀ k i call, PostAt ns es [116] 0 k i call → k ∈ [20] := by
    intro k i call hpa
    have hlt : k < 46 := Nat.lt_of_not_le fun hk => by
      have hq := List.all_eq_true.1 poll_quiet _ (List.mem_range.2 (Nat.mod_lt (k - 46) (show 0 < 18 by decide)))
      rw [← h10 k hk, hpa.event] at hq
      cases hq
    have := List.all_eq_true.1 served_posts k (List.mem_range.2 hlt)
    rw [← h9 k hlt, hpa.event] at this
    have hid := hpa.idle
    rw [h8 k (by omega)] at hid
    unfold PostCall.call at this
    split at this <;> simpa [postsAt, hid] using this
  have hdone : ∀ k ∈ [20], ∃ i call m, PostAt ns es [116] 0 k i call ∧ ReturnedBy ns k i m := by
    intro k hk
    cases List.mem_singleton.1 hk
    refine ⟨1, firstPost, 26, ⟨by rw [h9 20 (by decide)]; rfl, by rw [h8 20 (by decide)]; rfl, rfl, rfl⟩, 26, by decide, by decide, .inr ?_⟩
    rw [h8 26 (by decide)]
    rfl
  obtain ⟨K, N, ks, k1, k2, k3⟩ := C136_over (B := 1000) (calls := [20]) h1 (by decide) h2 h3 h4 h6 (by decide) hall hdone
  rw [List.perm_singleton.1 k1] at k2
  exact ⟨ns, es, K, N, k2, k3⟩

end KM.Props
