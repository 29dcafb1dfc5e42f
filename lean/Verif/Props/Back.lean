import Verif.Props.Once
/-
Property C128: SetConsumerGroupOffset sends a group back, whatever it has committed, if no commit is under way.
-/
namespace KM.Props
open KM KM.Spec

/-- A request changes nothing any more once it has begun to write its response. -/
theorem change_unwritten {sv : Server} {r : Reader} {n : Nat} {d1 d2 : List REv} {e : REv} {z : Prog DRes} (h : Own (dispatcher sv r n) (d1 ++ e :: d2) z) (he : e.act.effect ≠ none) :
    ∀ x ∈ d1, x.act.socket = false := by
  have nil : d1 ++ e :: d2 = [] → ∀ x ∈ d1, x.act.socket = false := fun h => by cases d1 <;> cases h
  unfold dispatcher at h
  split at h
  · generalize hl : d1 ++ e :: d2 = l at h; cases h; exact nil hl
  · generalize hl : d1 ++ e :: d2 = l at h; cases h; exact nil hl
  · dsimp only at h
    split at h
    · generalize hl : d1 ++ e :: d2 = l at h; cases h; exact nil hl
    · generalize hl : d1 ++ e :: d2 = l at h; cases h; exact nil hl
    · split at h
      · generalize hl : d1 ++ e :: d2 = l at h; cases h; exact nil hl
      · rcases own_bind_inv h with ⟨p', h1, _⟩ | ⟨l1, l2, v, h1, h2, h3⟩
        · exact fun x hx => (h1.only (handler_socket sv _ _)).2 x (List.mem_append_left _ hx)
        · have k1 := (h1.only (handler_socket sv _ _)).2
          have k2 := (h2.only (finish_only _ _ _)).2
          rcases List.append_eq_append_iff.1 h3 with ⟨y, rfl, y2⟩ | ⟨y, rfl, y2⟩
          · exact fun x hx => k1 x (List.mem_append_left _ hx)
          · exact absurd (noEffect_effect (k2 e (by rw [y2]; simp)).noEffect) he

/-- What a connection changes after a client has received some responses belongs to a later message. -/
theorem conn_effect_late {sv : Server} {clock : Int} {ta tb : List NEv} {na n n' : Net} (h1 : Net.Run (Net.new sv clock) ta na) (h2 : Net.Run na tb n) {c : Nat} {a : Act} {r : a.Resp}
    (hsm : SmallReplies sv (actsOf c (mocks ta))) (hs : Net.Step n (.mock (.conn c a r)) n') (he : a.effect ≠ none) :
    ∃ i t p g o, a = .commit t p g o ∧ CommitSent (ta ++ tb) c i t p g o ∧ (frames (got c ta)).length ≤ i := by
  have h := h1.append h2
  have h' := h.append (.cons hs (.nil _))
  obtain ⟨q, hq⟩ := acts_own h'.sys c
  have hacts : actsOf c (mocks (ta ++ tb ++ [.mock (.conn c a r)])) = actsOf c (mocks (ta ++ tb)) ++ [⟨a, r⟩] := by
    rw [mocks_append, actsOf_append, show mocks [.mock (.conn c a r)] = [.conn c a r] from rfl, actsOf_self]
  rw [hacts] at hq
  have hch : changes a = true := by
    cases a <;> first | rfl | exact absurd rfl he
  obtain ⟨x, m, y, d, z, k1, k2, d', k3⟩ := change_served (handle_conv hq) rfl hch
  obtain ⟨q, corr, client, b, extra, h4, hfit, h5, t, h6, par, h7, h8⟩ := dispatcher_effect k2 (e := ⟨a, r⟩) (by rw [k3]; simp) he
  have h9 := taken_up h k1
  rw [h5] at h9
  refine ⟨_, _, _, _, _, h8, ⟨h9, h4, hfit, rfl, h6, rfl, h7, rfl, rfl⟩, ?_⟩
  refine Classical.byContradiction fun hlt => ?_
  obtain ⟨l1, m', pre, corr', payload, l2, e1, e2, _⟩ := reply_in h1 c hsm (List.getElem?_eq_getElem (Nat.lt_of_not_le hlt))
  rw [mocks_append, actsOf_append, e1, List.append_assoc, List.cons_append] at k1
  obtain ⟨_, _, k4⟩ := same_begin k1 e2
  rw [k3] at k2
  have := change_unwritten k2 he ⟨.write payload, true⟩ (by rw [← k4]; simp [replyWrites])
  cases this

/-- A caller that was idle and is in a function has called it since. -/
theorem called_since {na : Net} {tr : List NEv} {n : Net} (h : Net.Run na tr n) {i : Nat} (hi : na.sys.api i = .idle) {p : Prog Unit} (hp : n.sys.api i = .call p) :
    ∃ (u v : List NEv) (n0 : Net) (c : Call) (q : Prog Unit) (l : List REv), tr = u ++ .mock (.life (.api i c)) :: v ∧ Net.Run na u n0 ∧ n0.sys.api i = .idle ∧
      c.entry = .call q ∧ Own q l p := by
  have key := net_snoc (n0 := na) (P := fun tr n => ∀ p, n.sys.api i = .call p → ∃ (u v : List NEv) (n0 : Net) (c : Call) (q : Prog Unit) (l : List REv),
    tr = u ++ .mock (.life (.api i c)) :: v ∧ Net.Run na u n0 ∧ n0.sys.api i = .idle ∧ c.entry = .call q ∧ q.Only NoCancel ∧ Own q l p)
    (fun p hp => by rw [hi] at hp; cases hp) (fun tr n e n' hr ih hs p hp => by
    have stay : ∀ q, n.sys.api i = .call q → (∀ q, q.Only NoCancel → n.sys.api i = .call q → ∃ es, Own q es p) →
        ∃ (u v : List NEv) (n0 : Net) (c : Call) (q : Prog Unit) (l : List REv),
        tr ++ [e] = u ++ .mock (.life (.api i c)) :: v ∧ Net.Run na u n0 ∧ n0.sys.api i = .idle ∧ c.entry = .call q ∧ q.Only NoCancel ∧ Own q l p := by
      intro q hq hx
      obtain ⟨u, v, n0, c, q0, l, g1, g2, g3, g4, g5, g6⟩ := ih q hq
      obtain ⟨es', x1⟩ := hx q (g6.only g5).1 hq
      exact ⟨u, v ++ [e], n0, c, q0, l ++ es', by rw [g1]; simp, g2, g3, g4, g5, g6.trans x1⟩
    cases hs with
    | send => exact stay p hp fun q _ hq => ⟨[], by rw [hp] at hq; cases hq; exact .refl _⟩
    | receive => exact stay p hp fun q _ hq => ⟨[], by rw [hp] at hq; cases hq; exact .refl _⟩
    | @mock e s L hs hl =>
      rcases step_call_back hs hp with ⟨q, hq⟩ | ⟨c, rfl, h1, h2⟩
      · refine stay q hq fun q ho hq => ?_
        rcases step_call hs hq ho with ⟨p', es, h3, h4, h5, _⟩ | ⟨_, h3, _⟩
        · rw [hp] at h3; cases h3
          exact ⟨_, h4.own⟩
        · rw [hp] at h3; cases h3
      · exact ⟨tr, [], n, c, p, [], rfl, hr, h1, h2, Call.noCancel h2, .refl _⟩) h p hp
  obtain ⟨u, v, n0, c, q, l, g1, g2, g3, g4, _, g6⟩ := key
  exact ⟨u, v, n0, c, q, l, g1, g2, g3, g4, g6⟩

/-- The call that sets an offset. -/
theorem resets_call {c : Call} {q : Prog Unit} {l : List REv} {t g : Bytes} {p : I32} {o : I64} {f : (Act.setOffset t p g o).Resp → Prog Unit} (hc : c.entry = .call q)
    (h : Own q l (.act (.setOffset t p g o) f)) : ∃ m, c = .setConsumerGroupOffset t m g o ∧ BitVec.ofInt 32 m = p := by
  have hm : ∀ call : PostCall, c = call.call → False := by
    intro call e
    rw [e, call.entry] at hc
    cases hc
    obtain ⟨_, ⟨_, h2⟩, _⟩ := post_first h nofun
    cases h2
  cases c with
  | simplePost t m k x => exact (hm ⟨t, m, k, x, none⟩ rfl).elim
  | extendedPost t m k x hs ts => exact (hm ⟨t, m, k, x, some (hs, ts)⟩ rfl).elim
  | createPartitionTopics m ts => cases hc; cases create_first h
  | setConsumerGroupOffset t' m g' o' =>
    cases hc
    obtain ⟨_, h2⟩ := reset_first h nofun
    cases h2
    exact ⟨m, rfl, rfl⟩
  | _ => cases hc

/-- A history in which the group commits nothing above `o` for the partition, and nobody sets its offset to anything but `o`. -/
def NoHigher (h : List Eff) (t : Bytes) (p : I32) (g : Bytes) (o : Int) : Prop :=
  (∀ o', .commit t p g o' ∈ h → o' ≤ o) ∧ ∀ o', .reset t p g o' ∈ h → o' = o

theorem NoHigher.sub {h h' : List Eff} {t : Bytes} {p : I32} {g : Bytes} {o : Int} (hq : NoHigher h t p g o) (hs : ∀ e ∈ h', e ∈ h) : NoHigher h' t p g o :=
  ⟨fun o' hm => hq.1 o' (hs _ hm), fun o' hm => hq.2 o' (hs _ hm)⟩

theorem NoHigher.committedFrom {h : List Eff} {t : Bytes} {p : I32} {g : Bytes} {o : Int} (hq : NoHigher h t p g o) : Spec.committedFrom o h t p g = o := by
  induction h with
  | nil => rfl
  | cons e h ih =>
    have ih := ih (hq.sub fun _ h => List.mem_cons_of_mem _ h)
    cases e with
    | post => exact ih
    | commit t' p' g' o' =>
      simp only [Spec.committedFrom]
      split
      · next hc =>
        obtain ⟨rfl, rfl, rfl⟩ := hc
        have := hq.1 o' List.mem_cons_self
        rw [show max o o' = o by omega]
        exact ih
      · exact ih
    | reset t' p' g' o' =>
      simp only [Spec.committedFrom]
      split
      · next hc =>
        obtain ⟨rfl, rfl, rfl⟩ := hc
        rw [hq.2 o' List.mem_cons_self]
        exact ih
      · exact ih

/-- The caller `i` calls SetConsumerGroupOffset in `na`, when the events `ta` have happened, and is about to return in `nb`, after `tb`. -/
structure SetsOffset (sv : Server) (clock : Int) (ta tb : List NEv) (na nb : Net) (i : Nat) (t : Bytes) (m : Int) (g : Bytes) (o : I64) : Prop where
  before : Net.Run (Net.new sv clock) ta na
  call : CallRun na.sys i (.setConsumerGroupOffset t m g o) (mocks tb) nb.sys
  run : Net.Run na (.mock (.life (.api i (.setConsumerGroupOffset t m g o))) :: tb) nb

/-- Every OffsetCommit of the group for the partition above `o` that a client sends at any time had been answered, and the client had received the response, when `ta` had happened. -/
def CommitsDone (ta tr : List NEv) (t : Bytes) (p : I32) (g : Bytes) (o : I64) : Prop :=
  ∀ c i o', CommitSent tr c i t p g o' → o'.toInt ≤ o.toInt ∨ i < (frames (got c ta)).length

/-- Every other call that sets the offset of the group sets it to the same, or has returned when `ta` has happened (and the mock is in `na`). -/
def SetsDone (sv : Server) (clock : Int) (ta : List NEv) (na : Net) (tr : List NEv) (t : Bytes) (p : I32) (g : Bytes) (o : I64) : Prop :=
  ∀ k i m o' n0, Called sv clock tr k i (.setConsumerGroupOffset t m g o') n0 → BitVec.ofInt 32 m = p → o' = o ∨ k < ta.length ∧ na.sys.api i = .idle

theorem later_effects {sv : Server} {clock : Int} {ta tb : List NEv} {na n : Net} (h1 : Net.Run (Net.new sv clock) ta na) (h2 : Net.Run na tb n) {t g : Bytes} {p : I32} {o : I64}
    (hsm : ∀ c, SmallReplies sv (actsOf c (mocks ta))) (hc : CommitsDone ta (ta ++ tb) t p g o) (hs : SetsDone sv clock ta na (ta ++ tb) t p g o) :
    NoHigher (effectsOf (mocks tb)) t p g o.toInt := by
  have key : ∀ x ∈ effectsOf (mocks tb), (∀ o', x = .commit t p g o' → o' ≤ o.toInt) ∧ ∀ o', x = .reset t p g o' → o' = o.toInt := by
    intro x hx
    unfold effectsOf at hx
    obtain ⟨e, k1, k2⟩ := List.mem_filterMap.1 hx
    obtain ⟨a, b, k3⟩ := List.append_of_mem k1
    obtain ⟨u1, u2, rfl, _, _⟩ := mocks_split k3
    obtain ⟨n1, r1, r2⟩ := h2.split
    cases r2 with
    | cons hst r2 =>
    cases e with
    | conn c a r =>
      dsimp only at k2
      obtain ⟨i, t', p', g', o', rfl, h5, h6⟩ := conn_effect_late h1 r1 (hsm c) hst (by rw [k2]; nofun)
      cases k2
      refine ⟨fun o2 e => ?_, nofun⟩
      cases e
      rcases hc c i o' (by rw [← List.append_assoc]; exact h5.more _) with h7 | h7
      · exact h7
      · omega
    | call i a r =>
      dsimp only at k2
      cases a with
      | setOffset t' p' g' o' =>
        cases k2
        refine ⟨nofun, fun o2 e => ?_⟩
        cases e
        cases hst with
        | mock hst hl =>
        cases hst with
        | call hp ha =>
        by_cases hi : na.sys.api i = .idle
        · obtain ⟨u, v, n0, c, q, l, g1, g2, g3, g4, g5⟩ := called_since r1 hi hp
          obtain ⟨m, rfl, hm⟩ := resets_call g4 g5
          rcases hs (ta.length + u.length) i m o' n0 (.mk (u := ta ++ u) (by rw [g1]; simp; rfl) (by simp) (h1.append g2) g3) hm with rfl | ⟨h7, _⟩
          · rfl
          · omega
        · obtain ⟨u, v, n0, n1, c, q, es, g1, g2, g3, g4, g5, g6, g7⟩ := net_called (h1.append r1) hp
          obtain ⟨m, rfl, hm⟩ := resets_call g5 g6.own
          rcases hs u.length i m o' n0 (.mk (u := u) (by rw [← List.append_assoc, g1, List.append_assoc]; rfl) rfl g2 g3) hm with rfl | ⟨_, h7⟩
          · rfl
          · exact absurd h7 hi
      | post => cases k2; exact ⟨nofun, nofun⟩
      | commit t' p' g' o' =>
        exfalso
        cases hst with
        | mock hst hl =>
        cases hst with
        | call hp ha =>
        obtain ⟨_, _, _, _, _, _, _, _, h5⟩ := call_effect (h1.append r1) (.mock (.call hp ha) hl) nofun
        rcases h5 with ⟨_, _, _, h5, _⟩ | ⟨_, _, _, _, _, h5⟩ <;> cases h5
      | _ => cases k2
    | _ => cases k2
  exact ⟨fun o' h => (key _ h).1 o' rfl, fun o' h => (key _ h).2 o' rfl⟩

/-- **C128**: SetConsumerGroupOffset returns for a partition that existed when it was called. When it was called, the clients had received the responses to all OffsetCommit requests of the group
with a larger offset that they ever send. Then every OffsetFetch request of the group that any client completes after the return is answered, if it asks for the partition, with an entry for it
with exactly the given offset: whatever the group had committed before. -/
theorem C128_back {sv : Server} {clock : Int} {ta tb tc : List NEv} {na nb n : Net} {a : Nat} {t g : Bytes} {m : Int} {o : I64} (h : SetsOffset sv clock ta tb na nb a t m g o)
    (hr : Net.Run nb tc n) (hex : (na.sys.view 0).hasPartition t (BitVec.ofInt 32 m))
    {tr : List NEv} (htr : tr = ta ++ .mock (.life (.api a (.setConsumerGroupOffset t m g o))) :: (tb ++ tc))
    (hsm : ∀ c, SmallReplies sv (actsOf c (mocks tr)))
    (hc : CommitsDone ta tr t (BitVec.ofInt 32 m) g o) (hs : SetsDone sv clock ta na tr t (BitVec.ofInt 32 m) g o) {d j : Nat}
    (hlate : (frames (asked d (ta ++ .mock (.life (.api a (.setConsumerGroupOffset t m g o))) :: tb))).length ≤ j) {msg r : Bytes} {q : OffsetFetchRequest} {corr : I32} {client : Option Bytes}
    (hm : (frames (asked d tr))[j]? = some msg) (ha : Accepted (.offsetFetch q) corr client msg) (hb : FitsBuffer (.offsetFetch q) corr client) (hg : q.groupId = g)
    (hre : (frames (got d tr))[j]? = some r) :
    ∃ b x, Framed b [r] ∧ Client.response Client.offsetFetch b = some ((corr, x), []) ∧
      ((∃ y ∈ q.topics, y.name = t ∧ BitVec.ofInt 32 m ∈ y.partitionIndexes) → ∃ y ∈ x.topics, y.name = t ∧ ∃ z ∈ y.partitions, z.partitionIndex = BitVec.ofInt 32 m) ∧
      ∀ y ∈ x.topics, y.name = t → ∀ z ∈ y.partitions, z.partitionIndex = BitVec.ofInt 32 m → z.committedOffset = o := by
  have eqn : tr = (ta ++ .mock (.life (.api a (.setConsumerGroupOffset t m g o))) :: tb) ++ tc := by rw [htr]; simp
  have e0 : tr = ta ++ (.mock (.life (.api a (.setConsumerGroupOffset t m g o))) :: tb ++ tc) := htr
  have hsa : ∀ c, SmallReplies sv (actsOf c (mocks ta)) := fun c => by
    have := hsm c
    rw [htr, mocks_append, actsOf_append] at this
    exact SmallReplies.left this
  have hlow := later_effects h.before (h.run.append hr) hsa (by rw [← e0]; exact hc) (by rw [← e0]; exact hs)
  obtain ⟨v1, m2, v2, pl2, v3, n3, n4, req2, corr2, client2, f1, f2, f3, f4, f5, f6, f7, f8, f9, _⟩ := C106_after (h.before.append h.run) hr d (by rw [← eqn]; exact hsm d) hlate
    (by rw [← eqn]; exact hre)
  cases same_message (b := [.mock (.conn d (.reqBegin m2) ())] ++ ((v2 ++ [.mock (.conn d (.write pl2) true)]) ++ v3)) (by
    rw [show ta ++ .mock (.life (.api a (.setConsumerGroupOffset t m g o))) :: tb ++ v1 ++ ([.mock (.conn d (.reqBegin m2) ())] ++ ((v2 ++ [.mock (.conn d (.write pl2) true)]) ++ v3)) = tr by
      rw [eqn, f1]; simp]
    exact hm) f5
  obtain ⟨rfl, rfl, _⟩ := C103_unambiguous (e := []) (e' := []) ha hb f6 f7 rfl
  -- after the call
  obtain ⟨sx, es, e1, e2, e3, _, e5⟩ := h.call.exec rfl
  have hex' : (sx.view 0).hasPartition t (BitVec.ofInt 32 m) := by
    have : (sx.view 0).ds = (na.sys.view 0).ds := e1
    unfold World.hasPartition at *
    rw [this]; exact hex
  obtain ⟨⟨xa, xb, rfl, _, h1⟩, _⟩ := C28_reset_exact e3 hex'
  obtain ⟨_, kc, _, kp⟩ := C46_kept f2.sys
  obtain ⟨x, g3, _, g4, g5⟩ := C59_offset_fetch f8
  have hsub : ∀ e, (e ∈ effectsOf (mocks tb) ∨ e ∈ effectsOf (mocks (v1 ++ [.mock (.conn d (.reqBegin msg) ())])) ∨
      e ∈ effectsOf (mocks (v2 ++ [.mock (.conn d (.write pl2) true)]))) → e ∈ effectsOf (mocks (.mock (.life (.api a (.setConsumerGroupOffset t m g o))) :: tb ++ tc)) := by
    intro e he
    rw [f1, mocks_append, mocks_append, mocks_append (v2 ++ _), effectsOf_append, effectsOf_append, effectsOf_append,
      show mocks (.mock (.life (.api a (.setConsumerGroupOffset t m g o))) :: tb) = .life (.api a (.setConsumerGroupOffset t m g o)) :: mocks tb from rfl]
    have : ∀ l, effectsOf (.life (.api a (.setConsumerGroupOffset t m g o)) :: l) = effectsOf l := fun l => rfl
    rw [this]
    rcases he with he | he | he <;> simp [he]
  rw [effects_append] at e5
  rw [NoHigher.committedFrom (hlow.sub fun e he => hsub e (.inl (by rw [← e5]; simp [he])))] at h1
  have h2 : ((n3.sys.view 0).committed t (BitVec.ofInt 32 m) g).toInt = o.toInt := by
    rw [kc]
    exact (congrArg (fun v => Spec.committedFrom v (effectsOf (mocks (v1 ++ [.mock (.conn d (.reqBegin msg) ())]))) t (BitVec.ofInt 32 m) g) h1).trans
      (NoHigher.committedFrom (hlow.sub fun e he => hsub e (.inr (.inl he))))
  refine ⟨_, x, f9, g3, ?_, ?_⟩
  · rintro ⟨y, hy, rfl, hyp⟩
    exact g4 y hy _ hyp (kp _ _ (e3.steps.hasPartition hex'))
  · intro y hy hyn z hz hzp
    obtain ⟨_, _, _, k, hn'⟩ := g5 y hy z hz
    rw [hyn, hzp, hg, h2] at hn'
    rw [NoHigher.committedFrom (hlow.sub fun e he => hsub e (.inr (.inr (List.mem_of_mem_take he))))] at hn'
    exact BitVec.eq_of_toInt_eq hn'

/-- **C128**, consumption: a client that asks for the offset of the group after such a call has returned, and fetches from there, receives the records of the partition from the given offset on
again, in order and none left out, whatever the group had committed before. -/
theorem C128_again {sv : Server} {clock : Int} {ta tb tc : List NEv} {na nb n : Net} {a : Nat} {t g : Bytes} {m : Int} {o : I64} (h : SetsOffset sv clock ta tb na nb a t m g o)
    (hr : Net.Run nb tc n) (hex : (na.sys.view 0).hasPartition t (BitVec.ofInt 32 m))
    {tr : List NEv} (htr : tr = ta ++ .mock (.life (.api a (.setConsumerGroupOffset t m g o))) :: (tb ++ tc))
    (hsm : ∀ c, SmallReplies sv (actsOf c (mocks tr)))
    (hc : CommitsDone ta tr t (BitVec.ofInt 32 m) g o) (hs : SetsDone sv clock ta na tr t (BitVec.ofInt 32 m) g o) {d j : Nat}
    (hlate : (frames (asked d (ta ++ .mock (.life (.api a (.setConsumerGroupOffset t m g o))) :: tb))).length ≤ j) {o' : I64} {ps : List Poll}
    (hread : OffsetRead tr d j t (BitVec.ofInt 32 m) g o') (hp : Polled tr t (BitVec.ofInt 32 m) o' ps)
    (hroom : ∀ t p, ∀ x ∈ (n.sys.view 0).log t p, wireSize x < 2 ^ 31) (h0 : 0 ≤ o.toInt) (hlen : o.toInt + ((n.sys.view 0).log t (BitVec.ofInt 32 m)).length < 2 ^ 63) :
    o' = o ∧ Labelled o.toInt (slice ((n.sys.view 0).log t (BitVec.ofInt 32 m)) o.toInt (pollMessages ps).length) (pollMessages ps) := by
  obtain ⟨hm, ha, hb, hg, hre, hf, hd, ht, hn, hpp, hi, ho⟩ := hread
  obtain ⟨b, x, g1, g2, _, g3⟩ := C128_back h hr hex htr hsm hc hs hlate hm ha hb hg hre
  cases framed_unique hf g1
  rw [hd] at g2
  cases g2
  have e := g3 _ ht hn _ hpp hi
  rw [ho] at e
  subst e
  have run : Net.Run (Net.new sv clock) tr n := by
    rw [htr]
    have := (h.before.append h.run).append hr
    simpa using this
  exact ⟨rfl, (C109 run hroom hp (fun _ _ => hsm _) h0 hlen).1⟩

end KM.Props
