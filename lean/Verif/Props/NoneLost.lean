import Verif.Props.Tally
/-
Property C132: no post is lost to a consumer group, whichever of its members stop.
-/
namespace KM.Props
open KM KM.Spec

variable {sv : Server} {clock : Int} {ns : Nat → Net} {es : Nat → NEv}

/-- Whoever has polled is at or behind the end that the log had when the request of the last poll was complete. -/
theorem poll_reaches {N m : Nat} (h : Listed sv clock ns es N) (hm : m ≤ N) (hroom : ∀ t p, ∀ x ∈ ((ns N).sys.view 0).log t p, wireSize x < 2 ^ 31) {t : Bytes} {p : I32} {first : I64} {ps : List Poll}
    {x : Poll} (hp : Polled (upTo es N) t p first (ps ++ [x])) (hs : ∀ y ∈ ps ++ [x], SmallReplies sv (actsOf y.conn (mocks (upTo es N)))) (h0 : 0 ≤ first.toInt)
    (hlen : first.toInt + (((ns N).sys.view 0).log t p).length < 2 ^ 63) (hlate : (frames (asked x.conn (upTo es m))).length ≤ x.idx) :
    (((ns m).sys.view 0).log t p).length ≤ (nextOffset first (pollMessages (ps ++ [x]))).toInt := by
  rw [(C109 h.run hroom hp hs h0 hlen).2]
  generalize hps : ps ++ [x] = ps' at hp
  cases hp with
  | none => simp at hps
  | @more ps1 x1 hp1 hx =>
    obtain ⟨rfl, hx1⟩ := List.append_inj' hps rfl
    cases hx1
    obtain ⟨_, i2⟩ := C109 h.run hroom hp1 (fun y hy => hs y (List.mem_append_left _ hy)) h0 hlen
    obtain ⟨hm', ha, hb, hone, hq, hr, hl, hf, hd, hy, hms⟩ := hx
    obtain ⟨tail, ht⟩ := upTo_le (es := es) hm
    have hrun := h.run
    have hs' := hs x (by simp)
    rw [ht] at hrun hr hm' hs'
    obtain ⟨nm, r1, r2⟩ := hrun.split
    obtain ⟨b', y', g1, g2, g3⟩ := fetched_at r1 r2 hs' hlate hm' ha hb hone hr hl hroom
    cases framed_unique hf g1
    rw [hd] at g2; cases g2
    obtain ⟨_, g4⟩ := forall2_at g3 hq hy
    cases g4 with
    | cons g4 _ =>
    obtain ⟨_, _, k, l1, l2, l3, _, _⟩ := g4
    dsimp only at l1 l2 l3
    have l4 := l3.1
    rw [hms, i2, List.length_drop, List.length_take, Nat.min_eq_left l2] at l4
    have b1 := (C46_kept (h.less hm).run.sys).1 t p
    have b2 := (C46_kept r1.sys).1 t p
    rw [pollMessages_snoc, List.length_append]
    rw [b2, ← b1] at l1
    omega

/-- **C132**: the members of a group commit no offset that no member has got to, and each may stop at any point (C111). A member has fetched, and the request of its last fetch was complete after `m`
events. Then of every call of SimplePost and ExtendedPost for the partition that had returned by then, some member has received the message; different calls have messages with different
offsets. -/
theorem C132 {N m : Nat} (h : Listed sv clock ns es N) (hm : m ≤ N) (hroom : ∀ t p, ∀ x ∈ ((ns N).sys.view 0).log t p, wireSize x < 2 ^ 31) {g t : Bytes} {p : I32}
    (hs : ∀ c, SmallReplies sv (actsOf c (mocks (upTo es N)))) (hlen : (((ns N).sys.view 0).log t p).length < 2 ^ 62) (hc : CommitsReceived (upTo es N) g t p)
    (hn : NotSet sv clock (upTo es N) g t p) {start : I64} {ps : List Poll} {x : Poll} (hse : GroupSession (upTo es N) g t p start (ps ++ [x]))
    (hlate : (frames (asked x.conn (upTo es m))).length ≤ x.idx) :
    ∃ ks : List Nat, ks.Nodup ∧ ∀ k i call, PostAt ns es t p k i call → ReturnedBy ns k i m →
      ∃ start' ps' y, GroupSession (upTo es N) g t p start' ps' ∧ y ∈ pollMessages ps' ∧ ks[y.offset.toNat]? = some k ∧ MessageOf ns es N t p k y := by
  obtain ⟨h1, h2, h3⟩ := C111 h.run hroom hs hlen hc hn hse
  obtain ⟨ks, k1, k2, k3⟩ := C129_records h t p
  refine ⟨ks, k1, ?_⟩
  intro k i call hpa hret
  have hps : Polled (upTo es N) t p start (ps ++ [x]) := by
    obtain ⟨_, _, _, _, _, _, _, _, _, _, _, _, hps⟩ := hse
    exact hps
  have hstart : start.toInt ≤ (((ns N).sys.view 0).log t p).length := by
    have : GroupSession (upTo es N) g t p start [] := by
      obtain ⟨a1, a2, a3, a4, a5, a6, a7, a8, a9, a10, a11, a12, _⟩ := hse
      exact ⟨a1, a2, a3, a4, a5, a6, a7, a8, a9, a10, a11, a12, .none⟩
    exact (C111 h.run hroom hs hlen hc hn this).2.1
  have reach := poll_reaches h hm hroom hps (fun _ _ => hs _) h1 (by omega) hlate
  obtain ⟨j, hj⟩ := List.getElem?_of_mem ((k3 m hm).1 k i call hpa hret)
  obtain ⟨l1, l2⟩ := List.getElem?_eq_some_iff.1 hj
  rw [List.length_take] at l1
  rw [List.getElem_take] at l2
  have hk : ks[j]? = some k := List.getElem?_eq_some_iff.2 ⟨by omega, l2⟩
  obtain ⟨start', ps', y, r, g1, g2, g3, g4, g5, g6, g7⟩ := h3 j (by omega)
  obtain ⟨q1, i', call', q2, q3⟩ := forall2_at k2 hk g4
  refine ⟨start', ps', y, g1, g2, ?_, q1, i', call', r, q2, q3, g5, g6, g7⟩
  have hlt := (List.getElem?_eq_some_iff.1 g4).1
  rw [g3, BitVec.toNat_ofNat, Nat.mod_eq_of_lt (by omega)]
  exact hk

end KM.Props
