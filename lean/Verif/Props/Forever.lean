import Verif.Props.Tally
import Verif.Props.Small
/-
Property C136: in a small test, a consumer that goes on polling receives one message from every post; when the posts are over it has received exactly one from each, and receives nothing more.
-/
namespace KM.Props
open KM KM.Spec

variable {sv : Server} {clock : Int} {ns : Nat → Net} {es : Nat → NEv} {F : Goroutine → Prop} {B : Nat}

/-- **C136**: in a small test (C124) a consumer polls a partition from the beginning for ever. For every time `m` there is a number of polls from which on the messages it has received come from
distinct calls of SimplePost and ExtendedPost for the partition, one from each, with all calls among them that had returned by `m`; and if a call had returned before another one was made, its message
comes first. -/
theorem C136 (h : NetEndless sv clock ns es F) (hB : B ≤ 2 ^ 22) (hl : ∀ n, Little B sv ((ns n).sys.view 0)) {c : Nat} (w : Working ns es c) (ha : Ample B es c) {t : Bytes} {p : I32} {idx : Nat → Nat}
    {ms : Nat → List MessageV1} (hc : Consuming es c t p 0 idx ms) (m : Nat) (hF : F (.conn c) := by first | exact trivial | assumption) :
    ∃ K, ∀ K', K ≤ K' → ∃ N ks, ks.Nodup ∧ List.Forall₂ (MessageOf ns es N t p) ks ((List.range K').flatMap ms) ∧ (∀ k i call, PostAt ns es t p k i call → ReturnedBy ns k i m → k ∈ ks) ∧
      ∀ k i call (j' k' : Nat), PostAt ns es t p k i call → ReturnedBy ns k i k' → ks[j']? = some k' → ∃ j, j < j' ∧ ks[j]? = some k := by
  have hd := fun n => (hl n).modest hB
  have hidx : ∀ i, i ≤ idx i := by
    intro i
    induction i with
    | zero => exact Nat.zero_le _
    | succ i ih => have := hc.later i; omega
  refine ⟨(frames (asked c (upTo es m))).length + 1, fun K' hK => ?_⟩
  obtain ⟨K, rfl⟩ : ∃ K, K' = K + 1 := ⟨K' - 1, by omega⟩
  obtain ⟨n, hn⟩ := C109_progress h w (ha.roomy h hB hl) (modest_below h hd c) (fun n _ _ hr => received_short hB (h.run n) (hl n) hr) (fun n => (hd n).room) hc (K + 1)
  have hN : n ≤ max n m := Nat.le_max_left ..
  obtain ⟨l, hl'⟩ := upTo_le (es := es) hN
  have hp : Polled (upTo es (max n m)) t p 0 (pollsUpTo c idx ms (K + 1)) := by rw [hl']; exact hn.mono
  have e1 : pollsUpTo c idx ms (K + 1) = pollsUpTo c idx ms K ++ [⟨c, idx K, ms K⟩] := by unfold pollsUpTo; rw [List.range_succ, List.map_append]; rfl
  have e2 := pollMessages_upTo c idx ms (K + 1)
  rw [e1] at hp e2
  rw [← e2]
  exact ⟨max n m, C131_polled ⟨h.first, fun k _ => h.step k⟩ (Nat.le_max_right ..) (hd _).room hp (fun _ _ => C114_small (h.run _) (hd _) _) (by have := (hd (max n m)).few t p; omega)
    (Nat.le_trans (Nat.le_of_succ_le_succ hK) (hidx K))⟩

/-- **C136**, when the posts are over: if the posts to the partition that are ever called are `calls`, and all of them return, there is a number of polls in which the consumer receives exactly one
message from each, and all later polls are empty. -/
theorem C136_over (h : NetEndless sv clock ns es F) (hB : B ≤ 2 ^ 22) (hl : ∀ n, Little B sv ((ns n).sys.view 0)) {c : Nat} (w : Working ns es c) (ha : Ample B es c) {t : Bytes} {p : I32}
    {idx : Nat → Nat} {ms : Nat → List MessageV1} (hc : Consuming es c t p 0 idx ms) {calls : List Nat} (hn : calls.Nodup) (hall : ∀ k i call, PostAt ns es t p k i call → k ∈ calls)
    (hdone : ∀ k ∈ calls, ∃ i call m, PostAt ns es t p k i call ∧ ReturnedBy ns k i m) (hF : F (.conn c) := by first | exact trivial | assumption) :
    ∃ K N ks, ks.Perm calls ∧ List.Forall₂ (MessageOf ns es N t p) ks ((List.range K).flatMap ms) ∧ ∀ i, K ≤ i → ms i = [] := by
  -- a time by which all have returned
  obtain ⟨m, hm⟩ : ∃ m, ∀ k ∈ calls, ∃ i call, PostAt ns es t p k i call ∧ ReturnedBy ns k i m := by
    clear hn hall
    induction calls with
    | nil => exact ⟨0, fun k hk => by cases hk⟩
    | cons a l ih =>
      obtain ⟨m, hm⟩ := ih fun k hk => hdone k (List.mem_cons_of_mem _ hk)
      obtain ⟨i, call, m', h1, h2⟩ := hdone a List.mem_cons_self
      have up : ∀ {k i x y : Nat}, x ≤ y → ReturnedBy ns k i x → ReturnedBy ns k i y := fun hxy ⟨j, j1, j2, j3⟩ => ⟨j, j1, Nat.le_trans j2 hxy, j3⟩
      refine ⟨max m m', fun k hk => ?_⟩
      rcases List.mem_cons.1 hk with rfl | hk
      · exact ⟨i, call, h1, up (Nat.le_max_right ..) h2⟩
      · obtain ⟨i, call, h1, h2⟩ := hm k hk
        exact ⟨i, call, h1, up (Nat.le_max_left ..) h2⟩
  obtain ⟨K, hK⟩ := C136 h hB hl w ha hc m
  have exact_ : ∀ K', K ≤ K' → ∃ N ks, ks.Perm calls ∧ List.Forall₂ (MessageOf ns es N t p) ks ((List.range K').flatMap ms) := fun K' hK' => by
    obtain ⟨N, ks, k1, k2, k3, _⟩ := hK K' hK'
    refine ⟨N, ks, (List.perm_ext_iff_of_nodup k1 hn).2 fun k => ⟨fun hk => ?_, fun hk => ?_⟩, k2⟩
    · obtain ⟨i, hi⟩ := List.getElem?_of_mem hk
      have hlt : i < ((List.range K').flatMap ms).length := by rw [← k2.length_eq]; exact (List.getElem?_eq_some_iff.1 hi).1
      obtain ⟨_, j, call, _, g2, _⟩ := forall2_at k2 hi (List.getElem?_eq_getElem hlt)
      exact hall k j call g2
    · obtain ⟨i, call, a1, a2⟩ := hm k hk
      exact k3 k i call a1 a2
  have size : ∀ K', K ≤ K' → ((List.range K').flatMap ms).length = calls.length := fun K' hK' => by
    obtain ⟨N, ks, k1, k2⟩ := exact_ K' hK'
    rw [← k2.length_eq, k1.length_eq]
  obtain ⟨N, ks, k1, k2⟩ := exact_ K (Nat.le_refl _)
  refine ⟨K, N, ks, k1, k2, fun i hi => ?_⟩
  have h1 := size i hi
  have h2 := size (i + 1) (by omega)
  rw [List.range_succ, List.flatMap_append, List.length_append, h1] at h2
  simp only [List.flatMap_cons, List.flatMap_nil, List.append_nil] at h2
  exact List.length_eq_zero_iff.1 (by omega)

end KM.Props
