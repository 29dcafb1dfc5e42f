import Verif.Props.Count
/-
Property C131: the messages of a consumer that polls from the beginning are the posts, each exactly once.
-/
namespace KM.Props
open KM KM.Spec

variable {sv : Server} {clock : Int} {ns : Nat → Net} {es : Nat → NEv}

theorem forall₂_of_getElem? {α β : Type} {R : α → β → Prop} {l : List α} {l' : List β} (hl : l.length = l'.length) (h : ∀ (i : Nat) a b, l[i]? = some a → l'[i]? = some b → R a b) :
    List.Forall₂ R l l' := by
  induction l generalizing l' with
  | nil => cases l' with
    | nil => exact .nil
    | cons => cases hl
  | cons a l ih => cases l' with
    | nil => cases hl
    | cons b l' => exact .cons (h 0 a b rfl rfl) (ih (Nat.succ.inj hl) fun i a b ha hb => h (i + 1) a b ha hb)

/-- The message comes from event number `k`, which is a call of SimplePost or ExtendedPost for the partition with this key, value and timestamp. -/
def MessageOf (ns : Nat → Net) (es : Nat → NEv) (N : Nat) (t : Bytes) (p : I32) (k : Nat) (x : MessageV1) : Prop :=
  k < N ∧ ∃ i call r, PostAt ns es t p k i call ∧ call.Matches ((ns k).sys.view 0).clock ((ns N).sys.view 0).clock r ∧ x.key = r.key ∧ x.value = r.value ∧ x.timestamp = r.timestamp

/-- **C131**: a consumer has polled from the beginning, by any fetches on any connections; the request of the last one was complete after `m` events. Then its messages come from distinct calls of
SimplePost and ExtendedPost for the partition, one from each; all calls that had returned by then are among them; and if a call had returned before another one was made, its message comes first. -/
theorem C131_polled {N m : Nat} (h : Listed sv clock ns es N) (hm : m ≤ N) (hroom : ∀ t p, ∀ x ∈ ((ns N).sys.view 0).log t p, wireSize x < 2 ^ 31) {t : Bytes} {p : I32} {ps : List Poll} {x : Poll}
    (hp : Polled (upTo es N) t p 0 (ps ++ [x])) (hs : ∀ y ∈ ps ++ [x], SmallReplies sv (actsOf y.conn (mocks (upTo es N)))) (hlen : (((ns N).sys.view 0).log t p).length < 2 ^ 63)
    (hlate : (frames (asked x.conn (upTo es m))).length ≤ x.idx) :
    ∃ ks : List Nat, ks.Nodup ∧ List.Forall₂ (MessageOf ns es N t p) ks (pollMessages (ps ++ [x])) ∧ (∀ k i call, PostAt ns es t p k i call → ReturnedBy ns k i m → k ∈ ks) ∧
      ∀ k i call (j' k' : Nat), PostAt ns es t p k i call → ReturnedBy ns k i k' → ks[j']? = some k' → ∃ j, j < j' ∧ ks[j]? = some k := by
  obtain ⟨ks, k1, k2, k3⟩ := C129_records h t p
  obtain ⟨L, _⟩ := C109 h.run hroom hp hs (by decide) (by simpa using hlen)
  have before : (((ns m).sys.view 0).log t p).length ≤ (pollMessages (ps ++ [x])).length := by
    generalize hps : ps ++ [x] = ps' at hp
    cases hp with
    | none => simp at hps
    | @more ps1 x1 hp1 hx =>
      obtain ⟨rfl, hx1⟩ := List.append_inj' hps rfl
      cases hx1
      obtain ⟨_, i2⟩ := C109 h.run hroom hp1 (fun y hy => hs y (List.mem_append_left _ hy)) (by decide) (by simpa using hlen)
      have i3 : (nextOffset 0 (pollMessages ps)).toInt.toNat = (pollMessages ps).length := by rw [i2]; simp
      obtain ⟨hm', ha, hb, hone, hq, hr, hl, hf, hd, hy, hms⟩ := hx
      obtain ⟨tail, ht⟩ := upTo_le (es := es) hm
      have hrun := h.run
      have hs' := hs x (by simp)
      rw [ht] at hrun hr hm' hs'
      obtain ⟨nm, r1, r2⟩ := hrun.split
      obtain ⟨b', y', g1, g2, g3⟩ := fetched_at r1 r2 hs' hlate hm' ha hb hone hr hl hroom
      cases framed_unique hf g1
      rw [hd] at g2; cases g2
      obtain ⟨_, g4⟩ := forall2_at g3 hq hy
      cases g4 with
      | cons g4 _ =>
      obtain ⟨_, _, k, l1, l2, l3, _, _⟩ := g4
      dsimp only at l1 l2 l3
      have l4 := l3.1
      rw [hms, i3, List.length_drop, List.length_take, Nat.min_eq_left l2] at l4
      have b1 := (C46_kept (h.less hm).run.sys).1 t p
      have b2 := (C46_kept r1.sys).1 t p
      rw [pollMessages_snoc, List.length_append]
      rw [b2, ← b1] at l1
      omega
  have hle : (pollMessages (ps ++ [x])).length ≤ ks.length := by
    rw [L.1, k2.length_eq]
    simp [slice]
  refine ⟨ks.take (pollMessages (ps ++ [x])).length, (List.take_sublist _ _).nodup k1, ?_, ?_, ?_⟩
  · refine forall₂_of_getElem? (by rw [List.length_take, Nat.min_eq_left hle]) ?_
    intro j k y hk hy
    have hj : j < (pollMessages (ps ++ [x])).length := (List.getElem?_eq_some_iff.1 hy).1
    rw [List.getElem?_take_of_lt hj] at hk
    have hlt : j < (((ns N).sys.view 0).log t p).length := by rw [← k2.length_eq]; exact (List.getElem?_eq_some_iff.1 hk).1
    obtain ⟨g1, i, call, g2, g3⟩ := forall2_at k2 hk (List.getElem?_eq_getElem hlt)
    obtain ⟨_, l2, l3, l4, _⟩ := L.2 j _ y (by
      unfold slice
      rw [show (0 : I64).toInt.toNat = 0 from rfl, List.drop_zero, List.getElem?_take_of_lt hj]
      exact List.getElem?_eq_getElem hlt) hy
    exact ⟨g1, i, call, _, g2, g3, l3, l4, l2⟩
  · intro k i call hpa hret
    have := (k3 m hm).1 k i call hpa hret
    have : k ∈ (ks.take (pollMessages (ps ++ [x])).length).take (((ns m).sys.view 0).log t p).length := by rwa [List.take_take, Nat.min_eq_left before]
    exact List.mem_of_mem_take this
  · intro k i call j' k' hpa hret hj'
    obtain ⟨hlt', hj'⟩ := List.getElem?_eq_some_iff.1 hj'
    rw [List.getElem_take] at hj'
    rw [List.length_take] at hlt'
    have hlt : j' < (((ns N).sys.view 0).log t p).length := by rw [← k2.length_eq]; omega
    have hk' : ks[j']? = some k' := List.getElem?_eq_some_iff.2 ⟨by omega, hj'⟩
    have hN : k' ≤ N := Nat.le_of_lt (forall2_at k2 hk' (List.getElem?_eq_getElem hlt)).1
    obtain ⟨o1, o2⟩ := k3 k' hN
    obtain ⟨j, hj⟩ := List.getElem?_of_mem (o1 k i call hpa hret)
    obtain ⟨l1, l2⟩ := List.getElem?_eq_some_iff.1 hj
    rw [List.length_take] at l1
    rw [List.getElem_take] at l2
    have : ¬ j' < (((ns k').sys.view 0).log t p).length := fun hb => by
      have := o2 k' (List.mem_of_getElem? (i := j') (by rw [List.getElem?_take_of_lt hb]; exact hk'))
      omega
    refine ⟨j, by omega, ?_⟩
    rw [List.getElem?_take_of_lt (by omega)]
    exact List.getElem?_eq_some_iff.2 ⟨by omega, l2⟩

/-- **C131**, when the posts are over: if the posts to the partition that are ever called are `calls`, and all of them had returned before the request of the last poll was complete, the consumer
has received exactly one message from each. -/
theorem C131_exact {N m : Nat} (h : Listed sv clock ns es N) (hm : m ≤ N) (hroom : ∀ t p, ∀ x ∈ ((ns N).sys.view 0).log t p, wireSize x < 2 ^ 31) {t : Bytes} {p : I32} {ps : List Poll} {x : Poll}
    (hp : Polled (upTo es N) t p 0 (ps ++ [x])) (hs : ∀ y ∈ ps ++ [x], SmallReplies sv (actsOf y.conn (mocks (upTo es N)))) (hlen : (((ns N).sys.view 0).log t p).length < 2 ^ 63)
    (hlate : (frames (asked x.conn (upTo es m))).length ≤ x.idx) {calls : List Nat} (hn : calls.Nodup) (hall : ∀ k i call, k < N → PostAt ns es t p k i call → k ∈ calls)
    (hdone : ∀ k ∈ calls, ∃ i call, PostAt ns es t p k i call ∧ ReturnedBy ns k i m) :
    ∃ ks, ks.Perm calls ∧ List.Forall₂ (MessageOf ns es N t p) ks (pollMessages (ps ++ [x])) := by
  obtain ⟨ks, k1, k2, k3, _⟩ := C131_polled h hm hroom hp hs hlen hlate
  refine ⟨ks, (List.perm_ext_iff_of_nodup k1 hn).2 fun k => ⟨fun hk => ?_, fun hk => ?_⟩, k2⟩
  · obtain ⟨i, hi⟩ := List.getElem?_of_mem hk
    have hlt : i < (pollMessages (ps ++ [x])).length := by rw [← k2.length_eq]; exact (List.getElem?_eq_some_iff.1 hi).1
    obtain ⟨g1, j, call, _, g2, _⟩ := forall2_at k2 hi (List.getElem?_eq_getElem hlt)
    exact hall k j call g1 g2
  · obtain ⟨i, call, a1, a2⟩ := hdone k hk
    exact k3 k i call a1 a2

/-- **C131** for a group: members of a group that starts at the beginning take turns (see `Relay`); the request of the last fetch was complete after `m` events. Then all messages that they have
received, put one after the other, come from distinct calls of SimplePost and ExtendedPost for the partition, one from each; all calls that had returned by then are among them; and if a call had
returned before another one was made, its message comes first. -/
theorem C131_group {N m : Nat} (h : Listed sv clock ns es N) (hm : m ≤ N) (hroom : ∀ t p, ∀ x ∈ ((ns N).sys.view 0).log t p, wireSize x < 2 ^ 31) {g t : Bytes} {p : I32} {ps : List Poll} {x : Poll}
    (hy : Relay g t p 0 (upTo es N) (ps ++ [x])) (hs : ∀ c, SmallReplies sv (actsOf c (mocks (upTo es N)))) (hlen : (((ns N).sys.view 0).log t p).length < 2 ^ 63)
    (hn : NotSet sv clock (upTo es N) g t p) (hlate : (frames (asked x.conn (upTo es m))).length ≤ x.idx) :
    ∃ ks : List Nat, ks.Nodup ∧ List.Forall₂ (MessageOf ns es N t p) ks (pollMessages (ps ++ [x])) ∧ (∀ k i call, PostAt ns es t p k i call → ReturnedBy ns k i m → k ∈ ks) ∧
      ∀ k i call (j' k' : Nat), PostAt ns es t p k i call → ReturnedBy ns k i k' → ks[j']? = some k' → ∃ j, j < j' ∧ ks[j]? = some k :=
  C131_polled h hm hroom (hy.polled h.run hroom hs (by simpa using hlen) hn).1 (fun _ _ => hs _) hlen hlate

end KM.Props
