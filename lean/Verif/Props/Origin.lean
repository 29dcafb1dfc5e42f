import Verif.Props.Polls
import Verif.Props.Told
import Verif.Props.Strict
/-
C110: nothing comes out of thin air. Where the records and the committed offsets that the clients read come from.
-/
namespace KM.Props
open KM KM.Spec

/-- The caller `i` has called `c`, as event number `k`; `n0` is the state in which it made the call. -/
inductive Called (sv : Server) (clock : Int) (tr : List NEv) (k i : Nat) (c : Call) (n0 : Net) : Prop where
  | mk {u v : List NEv} (ht : tr = u ++ .mock (.life (.api i c)) :: v) (hk : u.length = k) (hr : Net.Run (Net.new sv clock) u n0) (hi : n0.sys.api i = .idle)

theorem Called.more {sv : Server} {clock : Int} {tr : List NEv} {k i : Nat} {c : Call} {n0 : Net} (h : Called sv clock tr k i c n0) (x : List NEv) : Called sv clock (tr ++ x) k i c n0 := by
  obtain ⟨ht, hk, hr, hi⟩ := h
  exact ⟨by rw [ht, List.append_assoc]; rfl, hk, hr, hi⟩

theorem net_snoc {P : List NEv → Net → Prop} {n0 : Net} (h0 : P [] n0) (hs : ∀ tr n e n', Net.Run n0 tr n → P tr n → Net.Step n e n' → P (tr ++ [e]) n') {tr : List NEv} {n : Net}
    (h : Net.Run n0 tr n) : P tr n := by
  generalize hm : tr.length = m
  induction m generalizing tr n with
  | zero =>
    have := List.eq_nil_of_length_eq_zero hm
    subst this
    cases h
    exact h0
  | succ m ih =>
    rcases List.eq_nil_or_concat tr with rfl | ⟨x, e, rfl⟩
    · cases hm
    · rw [List.concat_eq_append] at h hm ⊢
      obtain ⟨n1, h1, h2⟩ := h.split
      cases h2 with
      | cons h2 h3 =>
        cases h3
        exact hs _ _ _ _ h1 (ih h1 (by simpa using hm)) h2

/-- A caller that is in a posting function has called it, and has been in it since. -/
theorem net_called {sv : Server} {clock : Int} {tr : List NEv} {n : Net} (h : Net.Run (Net.new sv clock) tr n) {i : Nat} {p : Prog Unit} (hp : n.sys.api i = .call p) :
    ∃ (u v : List NEv) (n0 n1 : Net) (c : Call) (q : Prog Unit) (es : List Ev), tr = u ++ .mock (.life (.api i c)) :: v ∧ Net.Run (Net.new sv clock) u n0 ∧ n0.sys.api i = .idle ∧
      Net.Step n0 (.mock (.life (.api i c))) n1 ∧ c.entry = .call q ∧ Exec (n1.sys.view 0) q es (n.sys.view 0) p ∧ own es = callsOf i (mocks v) := by
  refine net_snoc (P := fun tr n => ∀ p, n.sys.api i = .call p → ∃ (u v : List NEv) (n0 n1 : Net) (c : Call) (q : Prog Unit) (es : List Ev),
    tr = u ++ .mock (.life (.api i c)) :: v ∧ Net.Run (Net.new sv clock) u n0 ∧ n0.sys.api i = .idle ∧
      Net.Step n0 (.mock (.life (.api i c))) n1 ∧ c.entry = .call q ∧ Exec (n1.sys.view 0) q es (n.sys.view 0) p ∧ own es = callsOf i (mocks v)) ?_ ?_ h p hp
  · intro p hp
    simp [Net.new, Sys.new] at hp
  · intro tr n e n' hr ih hs p hp
    have stay : ∀ q, n.sys.api i = .call q → (∀ q, q.Only NoCancel → n.sys.api i = .call q → ∃ es, Exec (n.sys.view 0) q es (n'.sys.view 0) p ∧ own es = callsOf i (mocks [e])) →
        ∃ (u v : List NEv) (n0 n1 : Net) (c : Call) (q : Prog Unit) (es : List Ev),
        tr ++ [e] = u ++ .mock (.life (.api i c)) :: v ∧ Net.Run (Net.new sv clock) u n0 ∧ n0.sys.api i = .idle ∧
        Net.Step n0 (.mock (.life (.api i c))) n1 ∧ c.entry = .call q ∧ Exec (n1.sys.view 0) q es (n'.sys.view 0) p ∧ own es = callsOf i (mocks v) := by
      intro q hq hx
      obtain ⟨u, v, n0, n1, c, q0, es, g1, g2, g3, g4, g5, g6, g7⟩ := ih q hq
      obtain ⟨es', x1, x2⟩ := hx q (g6.only (Call.noCancel g5)).1 hq
      refine ⟨u, v ++ [e], n0, n1, c, q0, es ++ es', by rw [g1]; simp, g2, g3, g4, g5, g6.trans x1, ?_⟩
      rw [own_append, g7, x2, mocks_append, callsOf_append]
    cases hs with
    | send => exact stay p hp fun q _ hq => ⟨[], by rw [hp] at hq; cases hq; exact .refl _ _, rfl⟩
    | receive => exact stay p hp fun q _ hq => ⟨[], by rw [hp] at hq; cases hq; exact .refl _ _, rfl⟩
    | @mock e s L hs hl =>
      rcases step_call_back hs hp with ⟨q, hq⟩ | ⟨c, rfl, h1, h2⟩
      · refine stay q hq fun q ho hq => ?_
        rcases step_call hs hq ho with ⟨p', es, h3, h4, h5, _⟩ | ⟨_, h3, _⟩
        · rw [hp] at h3; cases h3
          exact ⟨es, h4, h5⟩
        · rw [hp] at h3; cases h3
      · exact ⟨tr, [], n, _, c, p, [], rfl, hr, h1, .mock hs hl, h2, .refl _ _, rfl⟩

/-- A posting function has one effect: its post, which is the last thing it does. -/
theorem post_first {call : PostCall} {l : List REv} {a : Act} {f : a.Resp → Prog Unit} (h : Own call.prog l (.act a f)) (he : a.effect ≠ none) :
    effectsBy l = [] ∧ (∃ rec, a = .post call.topic (BitVec.ofInt 32 call.partition) rec) ∧ ∀ r, f r = .ret () := by
  unfold PostCall.prog at h
  split at h
  all_goals
    cases h with
    | refl => exact absurd rfl he
    | act _ _ _ h =>
      cases h with
      | refl => exact absurd rfl he
      | act _ _ _ h =>
        cases h with
        | refl => exact absurd rfl he
        | act _ _ _ h =>
          cases h with
          | refl => exact ⟨rfl, ⟨_, rfl⟩, fun _ => rfl⟩
          | act _ _ _ h => cases h

theorem reset_first {t g : Bytes} {m : Int} {o : I64} {l : List REv} {a : Act} {f : a.Resp → Prog Unit} (h : Own (setConsumerGroupOffset t m g o) l (.act a f)) (he : a.effect ≠ none) :
    effectsBy l = [] ∧ a = .setOffset t (BitVec.ofInt 32 m) g o := by
  cases h with
  | refl => exact absurd rfl he
  | act _ _ r h =>
    cases r with
    | false => cases h
    | true =>
      cases h with
      | refl => exact absurd rfl he
      | act _ _ r h =>
        cases r with
        | false => cases h
        | true =>
          cases h with
          | refl => exact ⟨rfl, rfl⟩
          | act _ _ _ h => cases h

theorem create_first {m : Int} {ts : List Bytes} {l : List REv} {a : Act} {f : a.Resp → Prog Unit} (h : Own (createPartitionTopics m ts) l (.act a f)) : a.effect = none := by
  induction ts generalizing l with
  | nil => cases h
  | cons t ts ih =>
    cases h with
    | refl => rfl
    | act _ _ r h =>
      cases h with
      | refl => rfl
      | act _ _ r h => exact ih h

/-- Which call an effect of a caller belongs to; it is the first effect since the call. -/
theorem call_effect {sv : Server} {clock : Int} {tr : List NEv} {n n' : Net} (h : Net.Run (Net.new sv clock) tr n) {i : Nat} {a : Act} {r : a.Resp}
    (hs : Net.Step n (.mock (.call i a r)) n') (he : a.effect ≠ none) :
    ∃ (u v : List NEv) (n0 : Net) (c : Call), tr = u ++ .mock (.life (.api i c)) :: v ∧ Net.Run (Net.new sv clock) u n0 ∧ n0.sys.api i = .idle ∧
      effectsBy (callsOf i (mocks v)) = [] ∧
      ((∃ (call : PostCall) (rec : Record), c = call.call ∧ a = .post call.topic (BitVec.ofInt 32 call.partition) rec ∧
          call.Matches (n0.sys.view 0).clock (n'.sys.view 0).clock rec) ∨
        ∃ t m g o, c = .setConsumerGroupOffset t m g o ∧ a = .setOffset t (BitVec.ofInt 32 m) g o) := by
  cases hs with
  | @mock _ s L hs hl =>
  cases hs with
  | @call _ _ f _ w hp ha =>
  obtain ⟨u, v, n0, n1, c, q, es, g1, g2, g3, g4, g5, g6, g7⟩ := net_called h hp
  have ho := g6.own
  rw [g7] at ho
  have hclock : (n0.sys.view 0).clock ≤ (n1.sys.view 0).clock := by
    cases g4 with
    | mock g4 =>
      obtain ⟨es, h1, _⟩ := Sys.Run.steps (.cons g4 (.nil _)) 0
      exact h1.clock
  have hm : ∀ call : PostCall, c = call.call → effectsBy (callsOf i (mocks v)) = [] ∧
      ∃ rec, a = .post call.topic (BitVec.ofInt 32 call.partition) rec ∧ call.Matches (n0.sys.view 0).clock w.clock rec := by
    intro call hc
    rw [hc, call.entry] at g5
    cases g5
    obtain ⟨h1, ⟨rec, rfl⟩, h3⟩ := post_first ho he
    have h4 := g6.trans (.mine _ f r ha (.refl _ _))
    rw [h3] at h4
    obtain ⟨rec', h5, h6⟩ := postCall_exec h4
    rw [ownPosts_append] at h5
    refine ⟨h1, rec, rfl, ?_⟩
    have : rec = rec' := by
      have h7 : ownPosts [⟨true, .post call.topic (BitVec.ofInt 32 call.partition) rec, r⟩] = [(call.topic, BitVec.ofInt 32 call.partition, rec)] := rfl
      rw [h7] at h5
      have h8 := congrArg List.length h5
      simp at h8
      rw [h8] at h5
      simpa using h5
    rw [this]
    exact h6.mono hclock (Int.le_refl _)
  cases c with
  | simplePost t m k x =>
    obtain ⟨h1, rec, h2, h3⟩ := hm ⟨t, m, k, x, none⟩ rfl
    exact ⟨u, v, n0, _, g1, g2, g3, h1, .inl ⟨⟨t, m, k, x, none⟩, rec, rfl, h2, h3⟩⟩
  | extendedPost t m k x hs ts =>
    obtain ⟨h1, rec, h2, h3⟩ := hm ⟨t, m, k, x, some (hs, ts)⟩ rfl
    exact ⟨u, v, n0, _, g1, g2, g3, h1, .inl ⟨⟨t, m, k, x, some (hs, ts)⟩, rec, rfl, h2, h3⟩⟩
  | createPartitionTopics m ts => cases g5; exact absurd (create_first ho) he
  | setConsumerGroupOffset t m g o =>
    cases g5
    obtain ⟨h1, h2⟩ := reset_first ho he
    exact ⟨u, v, n0, _, g1, g2, g3, h1, .inr ⟨t, m, g, o, rfl, h2⟩⟩
  | _ => cases g5

/-! ### What connections do -/

/-- The client of connection `c` has sent, as its message `i`, an OffsetCommit request for group `g` with offset `o` for partition `p` of topic `t`. (Surplus bytes may
follow the request in the message: the mock stores the offsets before it looks for such bytes, see C17.) -/
inductive CommitSent (tr : List NEv) (c i : Nat) (t : Bytes) (p : I32) (g : Bytes) (o : I64) : Prop where
  | mk {a extra : Bytes} {q : CommitRequest} {corr : I32} {client : Option Bytes} {qt : CommitTopic} {qp : CommitPartition} (hm : (frames (asked c tr))[i]? = some (a ++ extra))
      (ha : Accepted (.offsetCommit q) corr client a) (hb : FitsBuffer (.offsetCommit q) corr client) (hg : q.groupId = g) (ht : qt ∈ q.topics) (hn : qt.name = t) (hp : qp ∈ qt.partitions) (hi : qp.partitionIndex = p)
      (ho : qp.committedOffset = o)

theorem CommitSent.more {tr : List NEv} {c i : Nat} {t : Bytes} {p : I32} {g : Bytes} {o : I64} (h : CommitSent tr c i t p g o) (x : List NEv) : CommitSent (tr ++ x) c i t p g o := by
  obtain ⟨hm, ha, hb, hg, ht, hn, hp, hi, ho⟩ := h
  have hm' := hm
  obtain ⟨y, hy⟩ := frames_append (asked c tr) (asked c x)
  rw [← List.getElem?_append_left (List.getElem?_eq_some_iff.1 hm).1 (l₂ := y), hy, ← asked_append] at hm'
  exact ⟨hm', ha, hb, hg, ht, hn, hp, hi, ho⟩

/-- A connection changes the data only while it serves a request. -/
theorem change_served {sv : Server} {inb : Bytes} {l : List REv} {q : Prog Unit} (h : Conv sv inb l q) {l1 l2 : List REv} {e : REv} (hl : l = l1 ++ e :: l2)
    (he : changes e.act = true) : ∃ x m y d z, l1 = x ++ ⟨.reqBegin m, ()⟩ :: y ∧ Own (dispatcher sv ⟨m⟩ m.length) d z ∧ ∃ d', d = y ++ e :: d' := by
  have no : ∀ {x : REv}, changes x.act = false → e ≠ x := fun h1 h2 => by rw [h2, h1] at he; cases he
  have more : ∀ {a l1 : List REv}, (∃ x m y d z, l1 = x ++ ⟨.reqBegin m, ()⟩ :: y ∧ Own (dispatcher sv ⟨m⟩ m.length) d z ∧ ∃ d', d = y ++ e :: d') →
      ∃ x m y d z, a ++ l1 = x ++ ⟨.reqBegin m, ()⟩ :: y ∧ Own (dispatcher sv ⟨m⟩ m.length) d z ∧ ∃ d', d = y ++ e :: d' := by
    rintro a _ ⟨x, m, y, d, z, rfl, h⟩
    exact ⟨a ++ x, m, y, d, z, by simp, h⟩
  induction h generalizing l1 with
  | head => cases l1 <;> cases hl
  | part hn h _ =>
    rcases h with rfl | ⟨d, rfl⟩ | rfl | ⟨r, rfl⟩
    · cases l1 <;> cases hl
    · obtain ⟨l1', rfl, e⟩ := split_after (a := [⟨.isDone, d⟩]) (b := []) hl (by simp [no (x := ⟨.isDone, d⟩) rfl])
      cases l1' <;> cases e
    · obtain ⟨l1', rfl, e⟩ := split_after (a := [⟨.isDone, true⟩, ⟨.close, ()⟩]) (b := []) hl (by simp [no (x := ⟨.isDone, true⟩) rfl, no (x := ⟨.close, ()⟩) rfl])
      cases l1' <;> cases e
    · obtain ⟨l1', rfl, e⟩ := split_after (a := [⟨.isDone, false⟩, ⟨.recv, r⟩]) (b := []) hl (by simp [no (x := ⟨.isDone, false⟩) rfl, no (x := ⟨.recv, r⟩) rfl])
      cases l1' <;> cases e
  | @timeout inb l q hn h ih =>
    obtain ⟨l1', rfl, e⟩ := split_after (a := [⟨.isDone, false⟩, ⟨.recv, .timeout⟩]) (b := l) hl (by simp [no (x := ⟨.isDone, false⟩) rfl, no (x := ⟨.recv, .timeout⟩) rfl])
    exact more (ih e)
  | @ignored inb b l q hn h ih =>
    obtain ⟨l1', rfl, e⟩ := split_after (a := [⟨.isDone, false⟩, ⟨.recv, .data b⟩, ⟨.isStopping, true⟩]) (b := l) hl
      (by simp [no (x := ⟨.isDone, false⟩) rfl, no (x := ⟨.recv, .data b⟩) rfl, no (x := ⟨.isStopping, true⟩) rfl])
    exact more (ih e)
  | @read inb b l q hn h ih =>
    obtain ⟨l1', rfl, e⟩ := split_after (a := [⟨.isDone, false⟩, ⟨.recv, .data b⟩, ⟨.isStopping, false⟩]) (b := l) hl
      (by simp [no (x := ⟨.isDone, false⟩) rfl, no (x := ⟨.recv, .data b⟩) rfl, no (x := ⟨.isStopping, false⟩) rfl])
    exact more (ih e)
  | huge => cases l1 <;> cases hl
  | begin => cases l1 <;> cases hl
  | @serving inb m' l x q hm hd _ =>
    obtain ⟨l1', rfl, h1⟩ := split_after (a := [⟨.reqBegin m', ()⟩]) (b := l) hl (by simp [no (x := ⟨.reqBegin m', ()⟩) rfl])
    exact ⟨[], m', l1', _, _, rfl, hd, l2, h1⟩
  | @rejected inb m' l hm hd =>
    obtain ⟨l1', rfl, h1⟩ := split_after (a := [⟨.reqBegin m', ()⟩]) (b := l ++ [⟨.reqEnd, ()⟩]) hl (by simp [no (x := ⟨.reqBegin m', ()⟩) rfl])
    rcases List.eq_nil_or_concat l2 with rfl | ⟨l2', z, rfl⟩
    · obtain ⟨_, h2⟩ := List.append_inj' h1 rfl
      exact absurd (List.cons.inj h2).1.symm (no rfl)
    · rw [List.concat_eq_append, ← List.cons_append, ← List.append_assoc] at h1
      exact ⟨[], m', l1', _, _, rfl, hd, l2', (List.append_inj' h1 rfl).1⟩
  | @served inb m' l l2' q hm hd h ih =>
    obtain ⟨l1', rfl, h1⟩ := split_after (a := [⟨.reqBegin m', ()⟩]) (b := l ++ ⟨.reqEnd, ()⟩ :: l2') hl (by simp [no (x := ⟨.reqBegin m', ()⟩) rfl])
    rcases List.append_eq_append_iff.1 h1 with ⟨z, rfl, x2⟩ | ⟨z, x1, x2⟩
    · cases z with
      | nil => simp at x2; exact absurd x2.1.symm (no rfl)
      | cons y z =>
        simp at x2
        have := more (a := [⟨.reqBegin m', ()⟩] ++ l ++ [y]) (ih x2.2)
        rwa [show [⟨.reqBegin m', ()⟩] ++ l ++ [y] ++ z = [⟨.reqBegin m', ()⟩] ++ (l ++ y :: z) by simp] at this
    · cases z with
      | nil => simp at x2; exact absurd x2.1 (no rfl)
      | cons y z => simp at x2; obtain ⟨rfl, _⟩ := x2; exact ⟨[], m', l1', _, _, rfl, hd, z, x1⟩

/-- The only effects of an OffsetCommit request are commits that it names. -/
theorem offsetCommit_only_listed (q : CommitRequest) :
    (offsetCommit q).Only fun a => ReadOnly a ∨ ∃ t ∈ q.topics, ∃ par ∈ t.partitions, a = .commit t.name par.partitionIndex q.groupId par.committedOffset := by
  refine Prog.Only.map _ (forEach_only_mem _ fun t ht => ⟨.inl rfl, fun kt => Prog.Only.map _ (forEach_only_mem _ fun par hpar => ?_)⟩)
  unfold commitPartition
  split
  · refine ⟨.inl rfl, fun kp => ?_⟩
    dsimp only
    split
    · exact ⟨.inr ⟨t, ht, par, hpar, rfl⟩, fun _ => trivial⟩
    · trivial
  · trivial

/-- What a request changes. -/
theorem dispatcher_effect {sv : Server} {m : Bytes} {n : Nat} {d : List REv} {z : Prog DRes} (h : Own (dispatcher sv ⟨m⟩ n) d z) {e : REv} (he : e ∈ d) (hc : e.act.effect ≠ none) :
    ∃ q corr client a extra, Accepted (.offsetCommit q) corr client a ∧ FitsBuffer (.offsetCommit q) corr client ∧ m = a ++ extra ∧
      ∃ t ∈ q.topics, ∃ par ∈ t.partitions, e.act = .commit t.name par.partitionIndex q.groupId par.committedOffset := by
  rcases C103 sv m n with ⟨req, c, client, a, extra, h1, h2, h3, h4, rfl, h6, h7⟩ | h1 | h1
  · rw [h7, dispatcher_request h2 sv c client h3 h4.1 h4.2] at h
    have rest : ∀ v, ((match v with
      | none => .ret .err
      | some payload => if (Reader.peek ⟨extra⟩ n).1.length ≠ 0 then .ret .err else send c payload) : Prog DRes).Only ReadOnly := by
      intro v
      cases v with
      | none => trivial
      | some payload =>
        dsimp only
        split
        · trivial
        · exact send_only c payload
    by_cases hq : ∃ q, req = .offsetCommit q
    · obtain ⟨q, rfl⟩ := hq
      have ho := Prog.Only.bind (((offsetCommit_only_listed q).map fun x => some (Spec.commitResponse x))) fun v => (rest v).mono fun _ h => .inl h
      rcases (h.only ho).2 e he with h5 | h5
      · exact absurd (noEffect_effect h5.noEffect) hc
      · exact ⟨q, c, client, a, extra, h1, h4, rfl, h5⟩
    · have ho := Prog.Only.bind (answer_noEffect sv req fun q hq' => hq ⟨q, hq'⟩) fun v => (rest v).mono fun _ h => h.noEffect
      exact absurd (noEffect_effect ((h.only ho).2 e he)) hc
  · rw [h1] at h; cases h; cases he
  · rw [h1] at h; cases h; cases he

/-- What the mock takes up is what the client has sent. -/
theorem taken_up {sv : Server} {clock : Int} {tr : List NEv} {n : Net} (h : Net.Run (Net.new sv clock) tr n) {c : Nat} {l1 l2 : List REv} {m : Bytes}
    (hl : actsOf c (mocks tr) = l1 ++ ⟨.reqBegin m, ()⟩ :: l2) : (frames (asked c tr))[(served l1).length]? = some m := by
  obtain ⟨q, hq⟩ := acts_own h.sys c
  rw [hl] at hq
  have c1 := begin_complete (handle_conv hq) rfl
  obtain ⟨q', hq', _⟩ := own_prefix hq
  have c2 := received_readIn (handle_conv hq') (fun hm => h.never_stopping c (by rw [hl]; simp [hm]))
  obtain ⟨tc, td, f1, f2, f3⟩ := actsOf_split hl
  obtain ⟨w1, v, g0, g1, g2⟩ := mocks_split f1
  subst g0
  obtain ⟨n0, r5, _⟩ := h.split
  have c3 := r5.asked c
  rw [g1, f2] at c3
  have c4 : KM.asked c w1 = readIn l1 ++ (n0.links c).up := by simpa [Net.new] using c3
  obtain ⟨z, hz⟩ := c2
  obtain ⟨y, hy⟩ := c1
  obtain ⟨x, hx⟩ := frames_append (received l1) (z ++ (n0.links c).up)
  rw [← List.append_assoc, hz, ← c4] at hx
  rw [List.nil_append] at hy
  obtain ⟨x', hx'⟩ := frames_append (asked c w1) (asked c (.mock (.conn c (.reqBegin m) ()) :: v))
  rw [asked_append, ← hx', ← hx, ← hy]
  simp

/-- What a connection changes in the data is what its client has asked for. -/
theorem conn_effect {sv : Server} {clock : Int} {tr : List NEv} {n n' : Net} (h : Net.Run (Net.new sv clock) tr n) {c : Nat} {a : Act} {r : a.Resp}
    (hs : Net.Step n (.mock (.conn c a r)) n') (he : a.effect ≠ none) : ∃ i t p g o, a = .commit t p g o ∧ CommitSent tr c i t p g o := by
  have h' := h.append (.cons hs (.nil _))
  obtain ⟨q, hq⟩ := acts_own h'.sys c
  have hacts : actsOf c (mocks (tr ++ [.mock (.conn c a r)])) = actsOf c (mocks tr) ++ [⟨a, r⟩] := by
    rw [mocks_append, actsOf_append, show mocks [.mock (.conn c a r)] = [.conn c a r] from rfl, actsOf_self]
  rw [hacts] at hq
  have hch : changes a = true := by
    cases a <;> first | rfl | exact absurd rfl he
  obtain ⟨x, m, y, d, z, h1, h2, d', h3⟩ := change_served (handle_conv hq) rfl hch
  obtain ⟨q, corr, client, b, extra, h4, hfit, h5, t, h6, par, h7, h8⟩ := dispatcher_effect h2 (e := ⟨a, r⟩) (by rw [h3]; simp) he
  have h9 := taken_up h h1
  rw [h5] at h9
  exact ⟨_, _, _, _, _, h8, h9, h4, hfit, rfl, h6, rfl, h7, rfl, rfl⟩

/-! ### Records -/

/-- The record `r` of partition `p` of topic `t` comes from event number `k`: the call of SimplePost or ExtendedPost with this topic, partition, key, value and headers (and timestamp). `now` is
the time at the end. -/
def PostedBy (sv : Server) (clock : Int) (tr : List NEv) (now : Int) (t : Bytes) (p : I32) (k : Nat) (r : Record) : Prop :=
  ∃ i call n0, Called sv clock tr k i (PostCall.call call) n0 ∧ PostCall.targets call t p ∧ call.Matches (n0.sys.view 0).clock now r

/-- The same, and the caller has had an effect since. -/
def PostedBy' (sv : Server) (clock : Int) (tr : List NEv) (now : Int) (t : Bytes) (p : I32) (k : Nat) (r : Record) : Prop :=
  ∃ (i : Nat) (call : PostCall) (n0 : Net) (u v : List NEv), tr = u ++ .mock (.life (.api i call.call)) :: v ∧ u.length = k ∧ Net.Run (Net.new sv clock) u n0 ∧ n0.sys.api i = .idle ∧
    effectsBy (callsOf i (mocks v)) ≠ [] ∧ call.targets t p ∧ call.Matches (n0.sys.view 0).clock now r

theorem PostedBy'.more {sv : Server} {clock : Int} {tr : List NEv} {now now' : Int} {t : Bytes} {p : I32} {k : Nat} {r : Record} (h : PostedBy' sv clock tr now t p k r) (x : List NEv)
    (hn : now ≤ now') : PostedBy' sv clock (tr ++ x) now' t p k r := by
  obtain ⟨i, call, n0, u, v, h1, h2, h3, h4, h5, h6, h7⟩ := h
  refine ⟨i, call, n0, u, v ++ x, by rw [h1]; simp, h2, h3, h4, ?_, h6, h7.mono (Int.le_refl _) hn⟩
  intro h8
  rw [mocks_append, callsOf_append, effectsBy_append] at h8
  exact h5 (List.append_eq_nil_iff.1 h8).1

/-- **C110**, records: every record of a partition was given to the mock in a call of SimplePost or ExtendedPost for that partition, each record in a call of its own. -/
theorem C110_records {sv : Server} {clock : Int} {tr : List NEv} {n : Net} (h : Net.Run (Net.new sv clock) tr n) (t : Bytes) (p : I32) :
    ∃ ks : List Nat, ks.Nodup ∧ List.Forall₂ (PostedBy sv clock tr (n.sys.view 0).clock t p) ks ((n.sys.view 0).log t p) := by
  suffices ∃ ks : List Nat, ks.Nodup ∧ List.Forall₂ (PostedBy' sv clock tr (n.sys.view 0).clock t p) ks ((n.sys.view 0).log t p) by
    obtain ⟨ks, h1, h2⟩ := this
    refine ⟨ks, h1, h2.imp ?_⟩
    rintro k r ⟨i, call, n0, u, v, h1, h2, h3, h4, _, h6, h7⟩
    exact ⟨i, call, n0, ⟨h1, h2, h3, h4⟩, h6, h7⟩
  refine net_snoc (P := fun tr n => ∃ ks : List Nat, ks.Nodup ∧ List.Forall₂ (PostedBy' sv clock tr (n.sys.view 0).clock t p) ks ((n.sys.view 0).log t p)) ?_ ?_ h
  · exact ⟨[], List.nodup_nil, .nil⟩
  · clear h
    rintro tr n e n' h ⟨ks, h1, h2⟩ hs
    have hr1 : Net.Run n [e] n' := .cons hs (.nil _)
    have hlog := (C46_kept hr1.sys).1 t p
    have hclock : (n.sys.view 0).clock ≤ (n'.sys.view 0).clock := by
      obtain ⟨es, g1, _⟩ := hr1.sys.steps 0
      exact g1.clock
    have keep : List.Forall₂ (PostedBy' sv clock (tr ++ [e]) (n'.sys.view 0).clock t p) ks ((n.sys.view 0).log t p) := h2.imp fun _ _ h => h.more _ hclock
    by_cases hpost : Spec.posts (effectsOf (mocks [e])) t p = []
    · rw [hpost, List.append_nil] at hlog
      exact ⟨ks, h1, by rw [hlog]; exact keep⟩
    · obtain ⟨i, a, r, rfl, ha⟩ : ∃ i a r, e = .mock (.call i a r) ∧ a.effect ≠ none := by
        cases e with
        | send => exact absurd rfl hpost
        | receive => exact absurd rfl hpost
        | mock e =>
          cases e with
          | conn c a r =>
            exfalso
            by_cases ha : a.effect = none
            · exact hpost (by simp [mocks, effectsOf, ha, Spec.posts])
            · obtain ⟨_, _, _, _, _, rfl, _⟩ := conn_effect h hs ha
              exact hpost rfl
          | call i a r =>
            refine ⟨i, a, r, rfl, fun ha => hpost ?_⟩
            simp [mocks, effectsOf, ha, Spec.posts]
          | _ => exact absurd rfl hpost
      obtain ⟨u, v, n0, c, g1, g2, g3, g4, g5⟩ := call_effect h hs ha
      rcases g5 with ⟨call, rec, rfl, rfl, g6⟩ | ⟨t', m, g, o, rfl, rfl⟩
      · have htg : call.targets t p := by
          refine Classical.byContradiction fun hc => hpost ?_
          unfold PostCall.targets at hc
          simp [mocks, effectsOf, Act.effect, Spec.posts, hc]
        have hone : Spec.posts (effectsOf (mocks [.mock (.call i (.post call.topic (BitVec.ofInt 32 call.partition) rec) r)])) t p = [rec] := by
          unfold PostCall.targets at htg
          simp [mocks, effectsOf, Act.effect, Spec.posts, htg]
        refine ⟨ks ++ [u.length], ?_, ?_⟩
        · refine List.nodup_append.2 ⟨h1, by simp, ?_⟩
          intro k hk k' hk' hkk
          rw [List.mem_singleton] at hk'
          subst hk'; subst hkk
          obtain ⟨j, hj⟩ := List.getElem?_of_mem hk
          have hlt : j < ((n.sys.view 0).log t p).length := by rw [← h2.length_eq]; exact (List.getElem?_eq_some_iff.1 hj).1
          obtain ⟨i', call', _, u', v', x1, x2, _, _, x5, _⟩ := forall2_at h2 hj (List.getElem?_eq_getElem hlt)
          rw [g1] at x1
          obtain ⟨rfl, x6⟩ := List.append_inj x1 x2.symm
          injection x6 with x6 x7
          injection x6 with x6; injection x6 with x6; injection x6 with x6 _
          subst x6; subst x7
          exact x5 g4
        · rw [hlog, hone]
          refine List.rel_append keep ?_
          refine .cons ⟨i, call, n0, u, v ++ [.mock (.call i (.post call.topic (BitVec.ofInt 32 call.partition) rec) r)], by rw [g1]; simp, rfl, g2, g3, ?_, htg, g6⟩ .nil
          rw [mocks_append, callsOf_append, effectsBy_append, g4]
          simp [mocks, callsOf, effectsBy, Act.effect]
      · exact absurd rfl hpost

/-- **C110**, what clients read: there is one assignment of distinct calls to offsets such that every message that any client has received in a Fetch response of the partition carries
the key, the value and the timestamp of the call assigned to its offset. -/
theorem C110_read {sv : Server} {clock : Int} {tr : List NEv} {n : Net} (h : Net.Run (Net.new sv clock) tr n)
    (hroom : ∀ t p, ∀ x ∈ (n.sys.view 0).log t p, wireSize x < 2 ^ 31) (t : Bytes) (p : I32) (hlen : ((n.sys.view 0).log t p).length < 2 ^ 63) :
    ∃ ks : List Nat, ks.Nodup ∧ ∀ (x : Poll) (o : I64), x.Seen tr t p o → SmallReplies sv (actsOf x.conn (mocks tr)) → 0 ≤ o.toInt → ∀ m ∈ x.msgs,
      ∃ k r, ks[m.offset.toNat]? = some k ∧ PostedBy sv clock tr (n.sys.view 0).clock t p k r ∧ m.key = r.key ∧ m.value = r.value ∧ m.timestamp = r.timestamp := by
  obtain ⟨ks, h1, h2⟩ := C110_records h t p
  refine ⟨ks, h1, ?_⟩
  intro x o hx hs h0 m hm
  obtain ⟨hmsg, ha, hb, hone, hq, hr, hl, hf, hd, hy, hms⟩ := hx
  obtain ⟨b', y', g1, g2, g3⟩ := fetched_at (.nil _) h hs (Nat.zero_le _) hmsg ha hb hone hr hl hroom
  cases framed_unique hf g1
  rw [hd] at g2; cases g2
  obtain ⟨_, g4⟩ := forall2_at g3 hq hy
  cases g4 with
  | cons g4 _ =>
  obtain ⟨_, _, k, _, k2, k3, _, _⟩ := g4
  dsimp only at k2 k3
  rw [hms] at k3
  obtain ⟨j, hj⟩ := List.getElem?_of_mem hm
  obtain ⟨k3, k4⟩ := k3
  have hjl := (List.getElem?_eq_some_iff.1 hj).1
  obtain ⟨r, hjr⟩ : ∃ r, ((((n.sys.view 0).log t p).take k).drop o.toInt.toNat)[j]? = some r := ⟨_, List.getElem?_eq_getElem (by omega)⟩
  obtain ⟨l1, l2, l3, l4, _⟩ := k4 j r m hjr hj
  rw [List.getElem?_drop, List.getElem?_take] at hjr
  split at hjr
  · have hlt := (List.getElem?_eq_some_iff.1 hjr).1
    have hoff : m.offset.toNat = o.toInt.toNat + j := by
      rw [l1, BitVec.toNat_ofInt]
      omega
    have hkl : o.toInt.toNat + j < ks.length := by rw [h2.length_eq]; exact hlt
    refine ⟨_, r, by rw [hoff]; exact List.getElem?_eq_getElem hkl, forall2_at h2 (List.getElem?_eq_getElem hkl) hjr, l3, l4, l2⟩
  · cases hjr

/-! ### Committed offsets -/

theorem committedFrom_origin (h : List Eff) (t : Bytes) (p : I32) (g : Bytes) (c : Int) :
    Spec.committedFrom c h t p g = c ∨ .commit t p g (Spec.committedFrom c h t p g) ∈ h ∨ .reset t p g (Spec.committedFrom c h t p g) ∈ h := by
  induction h generalizing c with
  | nil => exact .inl rfl
  | cons e h ih =>
    cases e with
    | post t' p' r =>
      rcases ih c with h1 | h1 | h1
      · exact .inl h1
      · exact .inr (.inl (List.mem_cons_of_mem _ h1))
      · exact .inr (.inr (List.mem_cons_of_mem _ h1))
    | commit t' p' g' o =>
      simp only [Spec.committedFrom]
      split
      · next hc =>
        obtain ⟨rfl, rfl, rfl⟩ := hc
        rcases ih (max c o) with h1 | h1 | h1
        · rw [h1]
          rcases Int.le_total c o with h2 | h2
          · rw [Int.max_eq_right h2]; exact .inr (.inl List.mem_cons_self)
          · rw [Int.max_eq_left h2]; exact .inl rfl
        · exact .inr (.inl (List.mem_cons_of_mem _ h1))
        · exact .inr (.inr (List.mem_cons_of_mem _ h1))
      · rcases ih c with h1 | h1 | h1
        · exact .inl h1
        · exact .inr (.inl (List.mem_cons_of_mem _ h1))
        · exact .inr (.inr (List.mem_cons_of_mem _ h1))
    | reset t' p' g' o =>
      simp only [Spec.committedFrom]
      split
      · next hc =>
        obtain ⟨rfl, rfl, rfl⟩ := hc
        rcases ih o with h1 | h1 | h1
        · rw [h1]; exact .inr (.inr List.mem_cons_self)
        · exact .inr (.inl (List.mem_cons_of_mem _ h1))
        · exact .inr (.inr (List.mem_cons_of_mem _ h1))
      · rcases ih c with h1 | h1 | h1
        · exact .inl h1
        · exact .inr (.inl (List.mem_cons_of_mem _ h1))
        · exact .inr (.inr (List.mem_cons_of_mem _ h1))

/-- A test has called SetConsumerGroupOffset with this offset, for the group and the partition. -/
def OffsetSet (sv : Server) (clock : Int) (tr : List NEv) (t : Bytes) (p : I32) (g : Bytes) (o : I64) : Prop :=
  ∃ k i m n0, Called sv clock tr k i (.setConsumerGroupOffset t m g o) n0 ∧ BitVec.ofInt 32 m = p

theorem OffsetSet.more {sv : Server} {clock : Int} {tr : List NEv} {t : Bytes} {p : I32} {g : Bytes} {o : I64} (h : OffsetSet sv clock tr t p g o) (x : List NEv) :
    OffsetSet sv clock (tr ++ x) t p g o := by
  obtain ⟨k, i, m, n0, h, hm⟩ := h
  exact ⟨k, i, m, n0, h.more x, hm⟩

/-- The offset is 0, or it comes from a client or from a test: a client has sent it in an OffsetCommit request of the group for the partition, or a test has called SetConsumerGroupOffset
with it. If it is negative, a test has called SetConsumerGroupOffset with a negative offset. -/
def OffsetGiven (sv : Server) (clock : Int) (tr : List NEv) (t : Bytes) (p : I32) (g : Bytes) (o : I64) : Prop :=
  (o = 0 ∨ (∃ c i, CommitSent tr c i t p g o) ∨ OffsetSet sv clock tr t p g o) ∧ (o.toInt < 0 → ∃ o', o'.toInt < 0 ∧ OffsetSet sv clock tr t p g o')

theorem effect_origin {sv : Server} {clock : Int} {tr : List NEv} {n : Net} (h : Net.Run (Net.new sv clock) tr n) {x : Eff} (hx : x ∈ effectsOf (mocks tr)) :
    (∀ t p g o, x = .commit t p g o → ∃ o' : I64, o = o'.toInt ∧ ∃ c i, CommitSent tr c i t p g o') ∧
      ∀ t p g o, x = .reset t p g o → ∃ o' : I64, o = o'.toInt ∧ OffsetSet sv clock tr t p g o' := by
  unfold effectsOf at hx
  obtain ⟨e, h1, h2⟩ := List.mem_filterMap.1 hx
  obtain ⟨a, b, h3⟩ := List.append_of_mem h1
  obtain ⟨u1, u2, rfl, _, _⟩ := mocks_split h3
  obtain ⟨n1, r1, r2⟩ := h.split
  cases r2 with
  | cons hs r2 =>
  cases e with
  | conn c a r =>
    dsimp only at h2
    obtain ⟨i, t', p', g', o', rfl, h5⟩ := conn_effect r1 hs (by rw [h2]; nofun)
    cases h2
    refine ⟨fun t p g o e => ?_, nofun⟩
    cases e
    exact ⟨o', rfl, c, i, h5.more _⟩
  | call i a r =>
    dsimp only at h2
    obtain ⟨u, v, n0, c, g1, g2, g3, g4, g5⟩ := call_effect r1 hs (by rw [h2]; nofun)
    rcases g5 with ⟨call, rec, rfl, rfl, g6⟩ | ⟨t', m, g', o', rfl, rfl⟩
    · cases h2
      exact ⟨nofun, nofun⟩
    · cases h2
      refine ⟨nofun, fun t p g o e => ?_⟩
      cases e
      exact ⟨o', rfl, OffsetSet.more ⟨_, i, m, n0, ⟨g1, rfl, g2, g3⟩, rfl⟩ _⟩
  | _ => cases h2

theorem committedFrom_neg (h : List Eff) (t : Bytes) (p : I32) (g : Bytes) (c : Int) (hc : 0 ≤ c) (hn : Spec.committedFrom c h t p g < 0) : ∃ o, o < 0 ∧ .reset t p g o ∈ h := by
  induction h generalizing c with
  | nil => exact absurd hn (by simp only [Spec.committedFrom]; omega)
  | cons e h ih =>
    cases e with
    | post t' p' r =>
      obtain ⟨o, h1, h2⟩ := ih c hc hn
      exact ⟨o, h1, List.mem_cons_of_mem _ h2⟩
    | commit t' p' g' o =>
      simp only [Spec.committedFrom] at hn
      obtain ⟨o, h1, h2⟩ := ih _ (by split <;> omega) hn
      exact ⟨o, h1, List.mem_cons_of_mem _ h2⟩
    | reset t' p' g' o =>
      simp only [Spec.committedFrom] at hn
      by_cases ho : t' = t ∧ p' = p ∧ g' = g ∧ o < 0
      · obtain ⟨rfl, rfl, rfl, ho⟩ := ho
        exact ⟨o, ho, List.mem_cons_self⟩
      · have : 0 ≤ if t' = t ∧ p' = p ∧ g' = g then o else c := by
          split
          · next hc => exact Int.not_lt.1 fun h => ho ⟨hc.1, hc.2.1, hc.2.2, h⟩
          · exact hc
        obtain ⟨o, h1, h2⟩ := ih _ this hn
        exact ⟨o, h1, List.mem_cons_of_mem _ h2⟩

theorem committed_origin {sv : Server} {clock : Int} {tr : List NEv} {n : Net} (h : Net.Run (Net.new sv clock) tr n) {hist : List Eff} (hsub : ∀ e ∈ hist, e ∈ effectsOf (mocks tr))
    {t : Bytes} {p : I32} {g : Bytes} {o : I64} (ho : o.toInt = Spec.committed hist t p g) : OffsetGiven sv clock tr t p g o := by
  unfold Spec.committed at ho
  refine ⟨?_, fun hneg => ?_⟩
  · rcases committedFrom_origin hist t p g 0 with h1 | h1 | h1
    · exact .inl (BitVec.eq_of_toInt_eq (by rw [ho, h1]; rfl))
    · obtain ⟨o', h2, h3⟩ := (effect_origin h (hsub _ h1)).1 _ _ _ _ rfl
      rw [← ho] at h2
      cases BitVec.eq_of_toInt_eq h2
      exact .inr (.inl h3)
    · obtain ⟨o', h2, h3⟩ := (effect_origin h (hsub _ h1)).2 _ _ _ _ rfl
      rw [← ho] at h2
      cases BitVec.eq_of_toInt_eq h2
      exact .inr (.inr h3)
  · obtain ⟨o1, h1, h2⟩ := committedFrom_neg hist t p g 0 (by omega) (ho ▸ hneg)
    obtain ⟨o', h3, h4⟩ := (effect_origin h (hsub _ h2)).2 _ _ _ _ rfl
    exact ⟨o', by omega, h4⟩

/-- **C110**, offsets: every committed offset of a group is 0, or a client has sent it or a test has set it. -/
theorem C110_offsets {sv : Server} {clock : Int} {tr : List NEv} {n : Net} (h : Net.Run (Net.new sv clock) tr n) (t : Bytes) (p : I32) (g : Bytes) :
    OffsetGiven sv clock tr t p g ((n.sys.view 0).committed t p g) :=
  committed_origin h (fun _ he => he) ((C46_kept h.sys).2.1 t p g)

/-- **C110**, offsets that clients read: every offset in an OffsetFetch response that a client has received is 0, or before that a client has sent it in an OffsetCommit request of that group
for that partition, or a test has called SetConsumerGroupOffset with it. -/
theorem C110_offset_read {sv : Server} {clock : Int} {tr : List NEv} {n : Net} (h : Net.Run (Net.new sv clock) tr n) {c i : Nat} (hs : SmallReplies sv (actsOf c (mocks tr)))
    {msg r b : Bytes} {q : OffsetFetchRequest} {corr : I32} {client : Option Bytes} {x : OffsetFetchResponse}
    (hm : (frames (asked c tr))[i]? = some msg) (ha : Accepted (.offsetFetch q) corr client msg) (hb : FitsBuffer (.offsetFetch q) corr client)
    (hr : (frames (got c tr))[i]? = some r) (hf : Framed b [r]) (hd : Client.response Client.offsetFetch b = some ((corr, x), [])) :
    ∃ u v, tr = u ++ v ∧ v ≠ [] ∧
      ∀ rt ∈ x.topics, ∀ rp ∈ rt.partitions, OffsetGiven sv clock u rt.name rp.partitionIndex q.groupId rp.committedOffset := by
  obtain ⟨u1, m', u2, payload, u3, n1, n2, req, corr', client', e1, e2, e3, e4, e5, e6, e7, e8, e9, e10⟩ := C106_after (.nil _) h c hs (Nat.zero_le _) hr
  have : m' = msg := by
    obtain ⟨x, hx⟩ := frames_append (asked c u1) (asked c ([.mock (.conn c (.reqBegin m') ())] ++ ((u2 ++ [.mock (.conn c (.write payload) true)]) ++ u3)))
    rw [List.nil_append] at e5
    rw [e1, List.append_assoc, asked_append, ← hx, List.getElem?_append_left (List.getElem?_eq_some_iff.1 e5).1, e5] at hm
    exact Option.some.inj hm
  subst this
  obtain ⟨rfl, rfl, _⟩ := C103_unambiguous (e := []) (e' := []) ha hb e6 e7 rfl
  obtain ⟨y, y1, y2⟩ := C90_partial e8
  cases framed_unique hf e9
  rw [hd] at y1; cases y1
  refine ⟨(u1 ++ [.mock (.conn c (.reqBegin m') ())]) ++ (u2 ++ [.mock (.conn c (.write payload) true)]), u3, by rw [e1]; simp, ?_, ?_⟩
  · rintro rfl
    have := (List.getElem?_eq_some_iff.1 hr).1
    rw [e1, List.append_nil] at this
    rw [List.nil_append, show u1 ++ .mock (.conn c (.reqBegin m') ()) :: (u2 ++ [.mock (.conn c (.write payload) true)]) =
      u1 ++ [.mock (.conn c (.reqBegin m') ())] ++ (u2 ++ [.mock (.conn c (.write payload) true)]) by simp] at e10
    omega
  · intro rt hrt rp hrp
    obtain ⟨_, k, hk⟩ := y2 rt hrt rp hrp
    refine committed_origin (e2.append e3) ?_ hk
    intro e he
    rw [mocks_append, mocks_append, effectsOf_append, effectsOf_append]
    rcases List.mem_append.1 he with he | he
    · simp only [List.nil_append] at he
      simp [he]
    · have := List.mem_of_mem_take he
      simp [this]

end KM.Props
