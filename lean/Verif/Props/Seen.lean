import Verif.Props.Net
import Verif.Props.Linear
/-
C107: what clients and tests see is linearizable: C94 for operations that last, for a client, from sending the last byte of the request (or earlier) to receiving the last byte of
the response, and that may be pipelined.
-/
namespace KM.Props
open KM KM.Spec

/-- A run of the mock with its clients, state by state. -/
structure NetTimeline (sv : Server) (clock : Int) where
  length : Nat
  st : Nat → Net
  ev : Nat → NEv
  start : st 0 = Net.new sv clock
  step : ∀ i, i < length → Net.Step (st i) (ev i) (st (i + 1))

/-- The events from state `a` to state `b`. -/
def NetTimeline.slice {sv : Server} {clock : Int} (N : NetTimeline sv clock) (a b : Nat) : List NEv := (List.range' a (b - a)).map N.ev

/-- The event in the mock; when a client sends or receives, nothing happens there (and no time passes). -/
def inMock : NEv → SEv
  | .mock e => e
  | _ => .tick 0

theorem inMock_step {n n' : Net} {e : NEv} (h : Net.Step n e n') : Sys.Step n.sys (inMock e) n'.sys := by
  have stutter : ∀ s : Sys, Sys.Step s (.tick 0) s := by
    intro s
    have := Sys.Step.tick (s := s) 0
    rwa [show ({ s with clock := s.clock + ((0 : Nat) : Int) } : Sys) = s by simp] at this
  cases h with
  | mock h => exact h
  | send => exact stutter _
  | receive => exact stutter _

/-- The run as one of the mock alone. -/
def NetTimeline.mock {sv : Server} {clock : Int} (N : NetTimeline sv clock) : Timeline sv clock :=
  ⟨N.length, fun i => (N.st i).sys, fun i => inMock (N.ev i), by rw [N.start]; rfl, fun i hi => inMock_step (N.step i hi)⟩

/-- An operation of a client or a test, and between which states of the network it lasts. For a request `place` is its number among the requests that the client sends. -/
structure ClientOp where
  start : Nat
  finish : Nat
  who : Who
  what : Happening
  place : Nat

/-- The operation is part of the run: a client has not sent all of the request at the start and has received the response, with its size, at the end; a call begins and returns. -/
inductive ClientOp.Seen {sv : Server} {clock : Int} (N : NetTimeline sv clock) : ClientOp → Prop where
  | request {a b k i : Nat} {req : Request} {c : I32} {client : Option Bytes} {m r w : Bytes} (hab : a ≤ b) (hb : b ≤ N.length)
      (late : (frames (asked k (N.slice 0 a))).length ≤ i) (hm : (frames (asked k (N.slice 0 b)))[i]? = some m) (acc : Accepted req c client m) (fit : FitsBuffer req c client)
      (hr : (frames (got k (N.slice 0 b)))[i]? = some r) (hw : Framed w [r]) (single : Single (N.st a).sys (N.st b).sys req)
      (records : ∀ t p, ∀ x ∈ ((N.st b).sys.view 0).log t p, wireSize x < 2 ^ 31) (response : w.length < 2 ^ 31) : Seen N ⟨a, b, .conn k, .answered req c w, i⟩
  | call {o : Operation} {i : Nat} (h : o.In N.mock) (hi : o.who = .caller i) : Seen N ⟨o.start, o.finish, o.who, o.what, 0⟩

/-- The operations of a run: each test makes one call after the other, the requests of a client are different ones, all changes of the data that tests make are parts of these
operations, and all requests that the mock has taken up are among them. -/
structure SeenOps {sv : Server} {clock : Int} (N : NetTimeline sv clock) (ops : List ClientOp) : Prop where
  inside : ∀ o ∈ ops, o.Seen N
  apart : ops.Pairwise fun o o' => o.who = o'.who → (∃ k, o.who = .conn k ∧ o.place ≠ o'.place) ∨ o.finish ≤ o'.start ∨ o'.finish ≤ o.start
  calls : ∀ t, t < N.length → ∀ i, changedBy (inMock (N.ev t)) = some (.caller i) → ∃ o ∈ ops, o.who = .caller i ∧ o.start ≤ t ∧ t < o.finish
  requests : ∀ k j, j < (served (actsOf k (mocks (N.slice 0 N.length)))).length → ∃ o ∈ ops, o.who = .conn k ∧ o.place = j
  small : ∀ k, SmallReplies sv (actsOf k (mocks (N.slice 0 N.length)))

section
variable {sv : Server} {clock : Int} (N : NetTimeline sv clock)

theorem NetTimeline.slice_append {a b c : Nat} (h : a ≤ b) (h' : b ≤ c) : N.slice a c = N.slice a b ++ N.slice b c := by
  unfold NetTimeline.slice
  rw [← List.map_append]
  congr 1
  obtain ⟨d, rfl⟩ : ∃ d, b = a + d := ⟨b - a, by omega⟩
  obtain ⟨e, rfl⟩ : ∃ e, c = a + d + e := ⟨c - (a + d), by omega⟩
  rw [show a + d + e - a = d + e by omega, show a + d - a = d by omega, show a + d + e - (a + d) = e by omega, List.range'_append_1]

theorem NetTimeline.slice_length (a b : Nat) : (N.slice a b).length = b - a := by simp [NetTimeline.slice]

theorem NetTimeline.slice_one (a : Nat) : N.slice a (a + 1) = [N.ev a] := by simp [NetTimeline.slice]

theorem NetTimeline.slice_split {a b : Nat} {ta tb : List NEv} (h : a ≤ b) (e : N.slice a b = ta ++ tb) :
    a + ta.length ≤ b ∧ ta = N.slice a (a + ta.length) ∧ tb = N.slice (a + ta.length) b := by
  have hl := congrArg List.length e
  rw [N.slice_length, List.length_append] at hl
  have h1 : a + ta.length ≤ b := by omega
  rw [N.slice_append (Nat.le_add_right a ta.length) h1] at e
  obtain ⟨e1, e2⟩ := List.append_inj e (by rw [N.slice_length]; omega)
  exact ⟨h1, e1.symm, e2.symm⟩

theorem NetTimeline.run_add (a d : Nat) (h : a + d ≤ N.length) : Net.Run (N.st a) (N.slice a (a + d)) (N.st (a + d)) := by
  induction d with
  | zero => simp only [Nat.add_zero, NetTimeline.slice, Nat.sub_self, List.range'_zero, List.map_nil]; exact .nil _
  | succ d ih =>
    rw [← Nat.add_assoc, N.slice_append (Nat.le_add_right a d) (Nat.le_succ _), N.slice_one]
    exact (ih (by omega)).append (.cons (N.step _ (by omega)) (.nil _))

theorem NetTimeline.run {a b : Nat} (h : a ≤ b) (hb : b ≤ N.length) : Net.Run (N.st a) (N.slice a b) (N.st b) := by
  obtain ⟨d, rfl⟩ : ∃ d, b = a + d := ⟨b - a, by omega⟩
  exact N.run_add a d hb

theorem NetTimeline.mock_slice (a b : Nat) : N.mock.slice a b = (N.slice a b).map inMock := by
  simp [Timeline.slice, NetTimeline.slice, NetTimeline.mock]

end

theorem actsOf_inMock (k : Nat) (l : List NEv) : actsOf k (l.map inMock) = actsOf k (mocks l) := by
  induction l with
  | nil => rfl
  | cons e l ih =>
    rw [mocks_cons, actsOf_append, ← ih, List.map_cons, show inMock e :: l.map inMock = [inMock e] ++ l.map inMock from rfl, actsOf_append]
    congr 1
    cases e <;> rfl

theorem framed_unique {w w' r : Bytes} (h : Framed w [r]) (h' : Framed w' [r]) : w = w' := by
  cases h with
  | @cons size _ _ _ h1 h2 h3 =>
    cases h3
    cases h' with
    | @cons size' _ _ _ k1 k2 k3 =>
      cases k3
      congr 2
      match size, size', h1, k1 with
      | [a, b, c, d], [a', b', c', d'], _, _ =>
        simp only [be, List.length_cons, List.length_nil] at h2 k2
        have := a.toNat_lt; have := b.toNat_lt; have := c.toNat_lt; have := d.toNat_lt
        have := a'.toNat_lt; have := b'.toNat_lt; have := c'.toNat_lt; have := d'.toNat_lt
        have e1 : a.toNat = a'.toNat := by omega
        have e2 : b.toNat = b'.toNat := by omega
        have e3 : c.toNat = c'.toNat := by omega
        have e4 : d.toNat = d'.toNat := by omega
        rw [UInt8.toNat_inj.1 e1, UInt8.toNat_inj.1 e2, UInt8.toNat_inj.1 e3, UInt8.toNat_inj.1 e4]

/-- Between the states `a` and `b` connection `k` serves its `i`-th request. -/
def Place {sv : Server} {clock : Int} (N : NetTimeline sv clock) (k i a b : Nat) : Prop := ∃ a0 m pre cw payload, a = a0 + 1 ∧ N.ev a0 = .mock (.conn k (.reqBegin m) ()) ∧
  (served (actsOf k (mocks (N.slice 0 a0)))).length = i ∧ actsOf k (mocks (N.slice a b)) = pre ++ replyWrites cw payload ∧ ∀ e ∈ pre, e.act.socket = false

/-- The operation of the mock inside of an operation of a client or a test. -/
structure Inside {sv : Server} {clock : Int} (N : NetTimeline sv clock) (o : ClientOp) (o' : Operation) : Prop where
  op : o'.In N.mock
  who : o'.who = o.who
  what : o'.what = o.what
  start : o.start ≤ o'.start
  finish : o'.finish ≤ o.finish
  call : ∀ i, o.who = .caller i → o'.start = o.start ∧ o'.finish = o.finish
  conn : ∀ k, o.who = .conn k → Place N k o.place o'.start o'.finish

theorem single_inside {N : NetTimeline sv clock} {a a' b' b : Nat} {req : Request} (h : Single (N.st a).sys (N.st b).sys req) (h1 : a ≤ a') (h2 : a' ≤ b') (h3 : b' ≤ b)
    (hb : b ≤ N.length) : Single (N.st a').sys (N.st b').sys req := by
  cases h with
  | fetch q h =>
    refine .fetch q (h.imp id fun h t ht p hp => ?_)
    rcases h t ht p hp with h | h
    · exact .inl ((C46_kept (N.run h1 (by omega)).sys).2.2.2 _ _ h)
    · right
      have := (C46_kept (N.run h3 hb).sys).1 t.topic p.partition
      rw [h] at this
      exact (List.append_eq_nil_iff.1 this.symm).1
  | listOffsets q => exact .listOffsets q
  | commit q => exact .commit q
  | offsetFetch q => exact .offsetFetch q
  | aside h => exact .aside h

theorem seen_inside {N : NetTimeline sv clock} {o : ClientOp} (small : ∀ k, SmallReplies sv (actsOf k (mocks (N.slice 0 N.length)))) (h : o.Seen N) : ∃ o', Inside N o o' := by
  cases h with
  | @call o i h hi => exact ⟨o, h, rfl, rfl, Nat.le_refl _, Nat.le_refl _, fun _ _ => ⟨rfl, rfl⟩, fun k hk => by dsimp only at hk; rw [hi] at hk; cases hk⟩
  | @request a b k i req c client m r w hab hb late hm acc fit hr hw single records response =>
    have h1 := N.run (Nat.zero_le a) (by omega)
    rw [N.start] at h1
    have h2 := N.run hab hb
    have e0 := N.slice_append (Nat.zero_le a) hab
    rw [e0] at hr hm
    have small' : SmallReplies sv (actsOf k (mocks (N.slice 0 a ++ N.slice a b))) := by
      have := small k
      rw [N.slice_append (Nat.zero_le b) hb, mocks_append, actsOf_append, e0] at this
      exact this.left
    obtain ⟨u1, m', u2, payload, u3, req', corr', client', pre, cw, l1, e1, e2, e3, e4, e5, e6, e7, e8, e9, e10, e11⟩ := reply_exchange h1 h2 k small' late hr
    have em : m' = m := by
      obtain ⟨x, hx⟩ := frames_append (asked k (N.slice 0 a ++ u1)) (asked k ([.mock (.conn k (.reqBegin m') ())] ++ ((u2 ++ [.mock (.conn k (.write payload) true)]) ++ u3)))
      rw [e1, List.append_assoc, ← List.append_assoc, asked_append, ← hx, List.getElem?_append_left (List.getElem?_eq_some_iff.1 e2).1, e2] at hm
      exact Option.some.inj hm
    subst em
    obtain ⟨rfl, rfl, _⟩ := C103_unambiguous (e := []) (e' := []) acc fit e3 e4 rfl
    rw [List.append_assoc] at e1
    obtain ⟨x1, x2, x3⟩ := N.slice_split hab e1
    obtain ⟨x4, x5, x6⟩ := N.slice_split x1 x3.symm
    obtain ⟨x7, x8, x9⟩ := N.slice_split x4 x6.symm
    simp only [List.length_cons, List.length_nil, Nat.zero_add] at x4 x5 x6 x7 x8
    generalize hA : a + u1.length = A at x1 x2 x3 x4 x5 x6 x7 x8
    generalize hB : A + 1 + (u2 ++ [NEv.mock (.conn k (.write payload) true)]).length = B at x7 x8
    have hlt : A + 1 < B := by rw [← hB, List.length_append]; simp
    have hbegin : N.ev A = .mock (.conn k (.reqBegin m') ()) := by
      rw [N.slice_one] at x5
      simpa using x5.symm
    have t1 : N.slice 0 A = N.slice 0 a ++ u1 := by rw [x2, ← N.slice_append (Nat.zero_le a) (by omega)]
    have hex : Exchange sv clock k req c (N.mock.slice 0 A) (N.mock.st (A + 1)) (N.mock.slice (A + 1) B) (N.mock.st B) := by
      refine e11 _ _ _ _ ⟨⟨N.mock.st A, ?_, ?_⟩, ?_, ?_, ?_⟩
      · have := N.mock.run (Nat.zero_le A) (show A ≤ N.length by omega)
        rwa [N.mock.start] at this
      · have := N.mock.step A (show A < N.length by omega)
        rwa [show N.mock.ev A = .conn k (.reqBegin m') () by show inMock (N.ev A) = _; rw [hbegin]; rfl] at this
      · exact N.mock.run (by omega) (show B ≤ N.length by omega)
      · rw [N.mock_slice, actsOf_inMock, t1, e9]
      · rw [N.mock_slice, actsOf_inMock, ← x8, e10]
    have hsent : sent (actsOf k (N.mock.slice (A + 1) B)) = w := by
      rw [N.mock_slice, actsOf_inMock, ← x8, e10]
      exact framed_unique e8 hw
    refine ⟨⟨A + 1, B, .conn k, .answered req c (sent (actsOf k (N.mock.slice (A + 1) B)))⟩, .request hlt (show B ≤ N.length by omega) hex
      (single_inside single (by omega) (by omega) x7 hb) ⟨?_, by rw [hsent]; exact response⟩, rfl, by rw [hsent], ?_, x7, nofun, ?_⟩
    · intro t p x hx
      refine records t p x ?_
      rw [(C46_kept (N.run x7 hb).sys).1]
      exact List.mem_append_left _ hx
    · show a ≤ A + 1; omega
    · intro k' hk
      cases hk
      exact ⟨A, m', pre, cw, payload, rfl, hbegin, by rw [t1, e9, e7], by rw [← x8, e10], e6⟩

section
variable {N : NetTimeline sv clock}

theorem served_more (l l' : List REv) : (served l).length ≤ (served (l ++ l')).length := by
  induction l with
  | nil => simp [served]
  | cons e l ih =>
    obtain ⟨a, r⟩ := e
    cases a with
    | reqBegin m => simp only [List.cons_append, served, List.length_cons]; omega
    | _ => exact ih

theorem served_slice (k : Nat) {a b : Nat} (h : a ≤ b) : (served (actsOf k (mocks (N.slice 0 a)))).length ≤ (served (actsOf k (mocks (N.slice 0 b)))).length := by
  rw [N.slice_append (Nat.zero_le a) h, mocks_append, actsOf_append]
  generalize actsOf k (mocks (N.slice 0 a)) = l
  exact served_more _ _

theorem served_take {k a : Nat} {m : Bytes} (h : N.ev a = .mock (.conn k (.reqBegin m) ())) :
    actsOf k (mocks (N.slice 0 (a + 1))) = actsOf k (mocks (N.slice 0 a)) ++ [⟨.reqBegin m, ()⟩] := by
  rw [N.slice_append (Nat.zero_le a) (Nat.le_succ a), N.slice_one, h, mocks_append, actsOf_append, show mocks [.mock (.conn k (.reqBegin m) ())] = [.conn k (.reqBegin m) ()] from rfl,
    actsOf_self]

/-- Earlier requests of a connection are over before later ones are taken up. -/
theorem places_ordered {k i j a b a' b' : Nat} (h : Place N k i a b) (h' : Place N k j a' b') (hij : i < j) : b ≤ a' := by
  obtain ⟨a0, m, pre, cw, payload, rfl, h1, h2, h3, h4⟩ := h
  obtain ⟨a1, m', pre', cw', payload', rfl, k1, k2, k3, k4⟩ := h'
  apply Classical.byContradiction
  intro hc
  have hlt : a0 < a1 := by
    apply Classical.byContradiction
    intro hc
    have := served_slice (N := N) k (show a1 ≤ a0 by omega)
    omega
  have hm : (⟨.reqBegin m', ()⟩ : REv) ∈ actsOf k (mocks (N.slice (a0 + 1) b)) := by
    rw [N.slice_append (show a0 + 1 ≤ a1 by omega) (show a1 ≤ b by omega), N.slice_append (Nat.le_succ a1) (show a1 + 1 ≤ b by omega), N.slice_one, k1, mocks_append, mocks_append, actsOf_append,
      actsOf_append, show mocks [.mock (.conn k (.reqBegin m') ())] = [.conn k (.reqBegin m') ()] from rfl, actsOf_self]
    simp
  rw [h3] at hm
  rcases List.mem_append.1 hm with x | x
  · cases h4 _ x
  · simp [replyWrites] at x

end

theorem send_socket (c : I32) (b : Bytes) : (send c b).Only fun a => a.socket = true := by
  have hf : sendFailed.Only fun a => a.socket = true := ⟨rfl, fun _ => trivial⟩
  refine ⟨rfl, fun ok1 => ?_⟩
  cases ok1 with
  | false => exact hf
  | true =>
    refine ⟨rfl, fun ok2 => ?_⟩
    cases ok2 with
    | false => exact hf
    | true =>
      refine ⟨rfl, fun ok3 => ?_⟩
      cases ok3 with
      | false => exact hf
      | true => trivial

theorem change_silent {a : Act} (h : changes a = true) : a.socket = false := by
  cases a <;> first | rfl | cases h

theorem before_change {sv : Server} {m : Bytes} {n : Nat} {d l1 l2 : List REv} {x : Prog DRes} (h : Own (dispatcher sv ⟨m⟩ n) d x) {e : REv} (hl : d = l1 ++ e :: l2)
    (he : changes e.act = true) : ∀ y ∈ l1, y.act.socket = false := by
  rcases dispatcher_own h with ⟨h1, _⟩ | ⟨p, s, c, payload, h0, h1, _, h2⟩
  · exact fun y hy => h1 y (by rw [hl]; simp [hy])
  · have hs := (h2.only (send_socket c payload)).2
    rw [h0] at hl
    rcases List.append_eq_append_iff.1 hl with ⟨z, rfl, x2⟩ | ⟨z, rfl, x2⟩
    · have := hs e (by rw [x2]; simp)
      rw [change_silent he] at this
      cases this
    · exact fun y hy => h1 y (by simp [hy])

/-- A connection changes the data only while it serves a request, before it answers. -/
theorem change_inside {sv : Server} {inb : Bytes} {l : List REv} {q : Prog Unit} (h : Conv sv inb l q) {l1 l2 : List REv} {e : REv} (hl : l = l1 ++ e :: l2)
    (he : changes e.act = true) : ∃ x m y, l1 = x ++ ⟨.reqBegin m, ()⟩ :: y ∧ ∀ d ∈ y, d.act.socket = false := by
  have no : ∀ {x : REv}, changes x.act = false → e ≠ x := fun h1 h2 => by rw [h2, h1] at he; cases he
  have more : ∀ {a l1 : List REv}, (∃ x m y, l1 = x ++ ⟨.reqBegin m, ()⟩ :: y ∧ ∀ d ∈ y, d.act.socket = false) →
      ∃ x m y, a ++ l1 = x ++ ⟨.reqBegin m, ()⟩ :: y ∧ ∀ d ∈ y, d.act.socket = false := by
    rintro a _ ⟨x, m, y, rfl, h⟩
    exact ⟨a ++ x, m, y, by simp, h⟩
  induction h generalizing l1 with
  | head => cases l1 <;> cases hl
  | part hn h _ =>
    rcases h with rfl | ⟨d, rfl⟩ | rfl | ⟨r, rfl⟩
    · cases l1 <;> cases hl
    · obtain ⟨l1', rfl, e⟩ := split_after (a := [⟨.isDone, d⟩]) (b := []) hl (by simp [no (x := ⟨.isDone, d⟩) rfl])
      cases l1' <;> cases e
    · obtain ⟨l1', rfl, e⟩ := split_after (a := [⟨.isDone, true⟩, ⟨.close, ()⟩]) (b := []) hl (by simp [no (x := ⟨.isDone, true⟩) rfl, no (x := ⟨.close, ()⟩) rfl])
      cases l1' <;> cases e
    · obtain ⟨l1', rfl, e⟩ := split_after (a := [⟨.isDone, false⟩, ⟨.recv, r⟩]) (b := []) hl (by simp [no (x := ⟨.isDone, false⟩) rfl, no (x := ⟨.recv, r⟩) rfl])
      cases l1' <;> cases e
  | @timeout inb l q hn h ih =>
    obtain ⟨l1', rfl, e⟩ := split_after (a := [⟨.isDone, false⟩, ⟨.recv, .timeout⟩]) (b := l) hl (by simp [no (x := ⟨.isDone, false⟩) rfl, no (x := ⟨.recv, .timeout⟩) rfl])
    exact more (ih e)
  | @ignored inb b l q hn h ih =>
    obtain ⟨l1', rfl, e⟩ := split_after (a := [⟨.isDone, false⟩, ⟨.recv, .data b⟩, ⟨.isStopping, true⟩]) (b := l) hl
      (by simp [no (x := ⟨.isDone, false⟩) rfl, no (x := ⟨.recv, .data b⟩) rfl, no (x := ⟨.isStopping, true⟩) rfl])
    exact more (ih e)
  | @read inb b l q hn h ih =>
    obtain ⟨l1', rfl, e⟩ := split_after (a := [⟨.isDone, false⟩, ⟨.recv, .data b⟩, ⟨.isStopping, false⟩]) (b := l) hl
      (by simp [no (x := ⟨.isDone, false⟩) rfl, no (x := ⟨.recv, .data b⟩) rfl, no (x := ⟨.isStopping, false⟩) rfl])
    exact more (ih e)
  | huge => cases l1 <;> cases hl
  | begin => cases l1 <;> cases hl
  | @serving inb m' l x q hm hd _ =>
    obtain ⟨l1', rfl, h1⟩ := split_after (a := [⟨.reqBegin m', ()⟩]) (b := l) hl (by simp [no (x := ⟨.reqBegin m', ()⟩) rfl])
    exact ⟨[], m', l1', rfl, before_change hd h1 he⟩
  | @rejected inb m' l hm hd =>
    obtain ⟨l1', rfl, h1⟩ := split_after (a := [⟨.reqBegin m', ()⟩]) (b := l ++ [⟨.reqEnd, ()⟩]) hl (by simp [no (x := ⟨.reqBegin m', ()⟩) rfl])
    refine ⟨[], m', l1', rfl, ?_⟩
    rcases List.append_eq_append_iff.1 h1 with ⟨z, _, x2⟩ | ⟨z, x1, x2⟩
    · have : e ∈ ([⟨.reqEnd, ()⟩] : List REv) := by rw [x2]; simp
      exact absurd (List.mem_singleton.1 this) (no rfl)
    · cases z with
      | nil => simp at x2; exact absurd x2.1 (no rfl)
      | cons y z => simp at x2; obtain ⟨rfl, _⟩ := x2; exact before_change hd x1 he
  | @served inb m' l l2' q hm hd h ih =>
    obtain ⟨l1', rfl, h1⟩ := split_after (a := [⟨.reqBegin m', ()⟩]) (b := l ++ ⟨.reqEnd, ()⟩ :: l2') hl (by simp [no (x := ⟨.reqBegin m', ()⟩) rfl])
    rcases List.append_eq_append_iff.1 h1 with ⟨z, rfl, x2⟩ | ⟨z, x1, x2⟩
    · cases z with
      | nil => simp at x2; exact absurd x2.1.symm (no rfl)
      | cons y z =>
        simp at x2
        have := more (a := [⟨.reqBegin m', ()⟩] ++ l ++ [y]) (ih x2.2)
        rwa [show [⟨.reqBegin m', ()⟩] ++ l ++ [y] ++ z = [⟨.reqBegin m', ()⟩] ++ (l ++ y :: z) by simp] at this
    · refine ⟨[], m', l1', rfl, ?_⟩
      cases z with
      | nil => simp at x2; exact absurd x2.1 (no rfl)
      | cons y z => simp at x2; obtain ⟨rfl, _⟩ := x2; exact before_change hd x1 he

/-- What a connection changes is changed between the states of an operation inside of one of the operations. -/
theorem change_placed {sv : Server} {clock : Int} {N : NetTimeline sv clock} {t k : Nat} (ht : t < N.length) (hc : changedBy (inMock (N.ev t)) = some (.conn k)) :
    ∃ j, j < (served (actsOf k (mocks (N.slice 0 N.length)))).length ∧ ∀ a b, Place N k j a b → a ≤ t ∧ t < b := by
  obtain ⟨a, r, he, ha⟩ : ∃ a r, N.ev t = .mock (.conn k a r) ∧ changes a = true := by
    generalize N.ev t = e at hc
    cases e with
    | mock e =>
      cases e with
      | conn k' a r =>
        simp only [inMock, changedBy] at hc
        split at hc
        · next h => cases hc; exact ⟨a, r, rfl, h⟩
        · cases hc
      | call i a r =>
        simp only [inMock, changedBy] at hc
        split at hc <;> cases hc
      | _ => cases hc
    | _ => cases hc
  have hacts : actsOf k (mocks (N.slice 0 (t + 1))) = actsOf k (mocks (N.slice 0 t)) ++ [⟨a, r⟩] := by
    rw [N.slice_append (Nat.zero_le t) (Nat.le_succ t), N.slice_one, he, mocks_append, actsOf_append, show mocks [.mock (.conn k a r)] = [.conn k a r] from rfl, actsOf_self]
  have hrun := N.run (Nat.zero_le (t + 1)) (by omega)
  rw [N.start] at hrun
  obtain ⟨q, hq⟩ := acts_own hrun.sys k
  rw [hacts] at hq
  obtain ⟨x, m, y, h1, h2⟩ := change_inside (handle_conv hq) rfl ha
  have hlen : (served (x ++ ⟨.reqBegin m, ()⟩ :: y)).length = (served x).length + 1 + (served y).length := by
    clear h1 h2
    induction x with
    | nil => simp [served]; omega
    | cons e x ih =>
      obtain ⟨a, r⟩ := e
      cases a with
      | reqBegin m' => simp only [List.cons_append, served, List.length_cons] at ih ⊢; omega
      | _ => exact ih
  refine ⟨(served x).length, ?_, ?_⟩
  · have := served_slice (N := N) k (show t ≤ N.length by omega)
    rw [h1, hlen] at this
    omega
  · rintro a' b ⟨a0, m', pre, cw, payload, rfl, k1, k2, k3, k4⟩
    constructor
    · apply Classical.byContradiction
      intro hc
      have := served_slice (N := N) k (show t ≤ a0 by omega)
      rw [h1, hlen] at this
      omega
    · apply Classical.byContradiction
      intro hc
      by_cases hab : a0 + 1 ≤ b
      · have e1 := served_take k1
        have e2 : actsOf k (mocks (N.slice 0 t)) = actsOf k (mocks (N.slice 0 a0)) ++ ⟨.reqBegin m', ()⟩ :: (pre ++ replyWrites cw payload ++ actsOf k (mocks (N.slice b t))) := by
          rw [N.slice_append (Nat.zero_le (a0 + 1)) (show a0 + 1 ≤ t by omega), N.slice_append hab (show b ≤ t by omega), mocks_append, mocks_append, actsOf_append, actsOf_append, e1, k3]
          simp
        rw [h1] at e2
        obtain ⟨_, _, e3⟩ := same_begin e2 k2.symm
        have := h2 ⟨.write payload, true⟩ (by rw [e3]; simp [replyWrites])
        cases this
      · have : N.slice (a0 + 1) b = [] := by simp [NetTimeline.slice, show b - (a0 + 1) = 0 by omega]
        rw [this] at k3
        have := congrArg List.length k3
        simp [mocks, actsOf, replyWrites] at this

/-- What the order of `C107` says about one part: the number of the operation, the part, and two times between which it happens. -/
structure Mark where
  index : Nat
  use : Use
  early : Int
  late : Int

/-- **C107**: what clients and tests see, from sending and receiving, from calls and their returns, is linearizable partition by partition, as in `C94_linearizable_partial`: there is
an order of the parts of all operations in which
- each operation has its parts, with the answer that the client has received;
- nothing comes after what a client began to send, or a test to call, after it was received or returned;
- the parts, one after the other, are what the sequential broker does, at times at which the operation lasted, and end with the data that the mock has.
Requests may be pipelined. What the parts of an operation are, and which requests are covered, is as in C94 (`Parts`, `Single`). -/
theorem C107_linearizable {sv : Server} {clock : Int} {N : NetTimeline sv clock} {ops : List ClientOp} (h : SeenOps N ops) :
    ∃ lin : List Mark, (∀ x ∈ lin, ∃ o, ops[x.index]? = some o ∧ (N.st o.start).sys.clock ≤ x.early ∧ x.late ≤ (N.st o.finish).sys.clock) ∧
      (∀ (j : Nat) o, ops[j]? = some o → ∃ a b, o.start ≤ a ∧ a < b ∧ b ≤ o.finish ∧
        Parts (N.st a).sys (N.st b).sys o.what ((lin.filter fun x => x.index = j).map (·.use))) ∧
      (lin.Pairwise fun x y => ∀ o o', ops[x.index]? = some o → ops[y.index]? = some o' → ¬ o'.finish ≤ o.start) ∧
      Legal Data.empty (lin.map fun x => (x.use, x.early, x.late)) (data (N.st N.length).sys) := by
  obtain ⟨ops', hf⟩ : ∃ ops', List.Forall₂ (Inside N) ops ops' := by
    have := h.inside
    have small := h.small
    clear h
    induction ops with
    | nil => exact ⟨[], .nil⟩
    | cons o ops ih =>
      obtain ⟨l, h1⟩ := ih fun o ho => this o (List.mem_cons_of_mem _ ho)
      obtain ⟨o', h2⟩ := seen_inside small (this o (by simp))
      exact ⟨o' :: l, .cons h2 h1⟩
  have at' : ∀ (j : Nat) o', ops'[j]? = some o' → ∃ o, ops[j]? = some o ∧ Inside N o o' := by
    clear h
    induction hf with
    | nil => intro j o' h; cases h
    | cons h1 _ ih =>
      intro j o' h
      cases j with
      | zero => cases h; exact ⟨_, rfl, h1⟩
      | succ j => exact ih j o' h
  have at'' : ∀ (j : Nat) o, ops[j]? = some o → ∃ o', ops'[j]? = some o' ∧ Inside N o o' := by
    clear h at'
    induction hf with
    | nil => intro j o' h; cases h
    | cons h1 _ ih =>
      intro j o' h
      cases j with
      | zero => cases h; exact ⟨_, rfl, h1⟩
      | succ j => exact ih j o' h
  have hmem : ∀ o ∈ ops, ∃ o' ∈ ops', Inside N o o' := by
    intro o ho
    obtain ⟨j, hj⟩ := List.mem_iff_getElem?.1 ho
    obtain ⟨o', h1, h2⟩ := at'' j o hj
    exact ⟨o', List.mem_of_getElem? h1, h2⟩
  have hops : Operations N.mock ops' := by
    refine ⟨?_, ?_, ?_⟩
    · intro o' ho
      obtain ⟨j, hj⟩ := List.mem_iff_getElem?.1 ho
      obtain ⟨o, _, h2⟩ := at' j o' hj
      exact h2.op
    · have := h.apart
      clear h at' at'' hmem
      induction hf with
      | nil => exact .nil
      | @cons o o' l l' h1 hl ih =>
        rw [List.pairwise_cons] at this ⊢
        refine ⟨?_, ih this.2⟩
        intro p' hp hw
        obtain ⟨p, hp1, hp2⟩ : ∃ p ∈ l, Inside N p p' := by
          clear this ih
          induction hl with
          | nil => cases hp
          | cons x _ ih =>
            rcases List.mem_cons.1 hp with rfl | hp
            · exact ⟨_, by simp, x⟩
            · obtain ⟨p, y1, y2⟩ := ih hp
              exact ⟨p, by simp [y1], y2⟩
        have hw' : o.who = p.who := by rw [← h1.who, hw, hp2.who]
        rcases this.1 p hp1 hw' with ⟨k, hk, hne⟩ | hne
        · have c1 := h1.conn k hk
          have c2 := hp2.conn k (by rw [← hw', hk])
          rcases Nat.lt_or_gt_of_ne hne with x | x
          · exact .inl (places_ordered c1 c2 x)
          · exact .inr (places_ordered c2 c1 x)
        · have := h1.start; have := h1.finish; have := hp2.start; have := hp2.finish
          omega
    · intro t ht x hx
      cases x with
      | caller i =>
        obtain ⟨o, ho, h1, h2, h3⟩ := h.calls t ht i hx
        obtain ⟨o', ho', hi⟩ := hmem o ho
        obtain ⟨e1, e2⟩ := hi.call i h1
        exact ⟨o', ho', by rw [hi.who, h1], by omega, by omega⟩
      | conn k =>
        obtain ⟨j, hj, hp⟩ := change_placed ht hx
        obtain ⟨o, ho, h1, h2⟩ := h.requests k j hj
        obtain ⟨o', ho', hi⟩ := hmem o ho
        have := hi.conn k h1
        rw [h2] at this
        obtain ⟨e1, e2⟩ := hp _ _ this
        exact ⟨o', ho', by rw [hi.who, h1], e1, e2⟩
  have hbound : ∀ o' : Operation, o'.In N.mock → o'.start < o'.finish ∧ o'.finish ≤ N.length := by
    intro o' h
    cases h <;> exact ⟨by assumption, by assumption⟩
  obtain ⟨lin, l1, l2, l3, l4⟩ := C94_linearizable_partial hops
  have hclock : ∀ {a b : Nat}, a ≤ b → b ≤ N.length → (N.st a).sys.clock ≤ (N.st b).sys.clock := fun h1 h2 => run_clock (N.run h1 h2).sys
  have hfinish : ∀ o ∈ ops, o.finish ≤ N.length := by
    intro o ho
    cases h.inside o ho with
    | call h1 => exact (hbound _ h1).2
    | request _ hb => exact hb
  refine ⟨lin.map fun x => ⟨x.index, x.use, (N.mock.st x.op.start).clock, (N.mock.st x.op.finish).clock⟩, ?_, ?_, ?_, ?_⟩
  · intro x hx
    obtain ⟨y, hy, rfl⟩ := List.mem_map.1 hx
    obtain ⟨o, h1, h2⟩ := at' _ _ (l1 y hy)
    have hb := hbound _ h2.op
    refine ⟨o, h1, hclock h2.start (by omega), hclock h2.finish (hfinish o (List.mem_of_getElem? h1))⟩
  · intro j o hj
    obtain ⟨o', h1, h2⟩ := at'' j o hj
    have := l2 j o' h1
    rw [h2.what] at this
    refine ⟨o'.start, o'.finish, h2.start, (hbound _ h2.op).1, h2.finish, ?_⟩
    rw [List.filter_map, List.map_map]
    exact this
  · rw [List.pairwise_map]
    have l3' : lin.Pairwise fun x y => x ∈ lin ∧ y ∈ lin ∧ ¬ y.op.finish ≤ x.op.start := by
      have := List.Pairwise.and_mem.1 l3
      exact this
    refine l3'.imp ?_
    rintro x y ⟨hx, hy, hxy⟩ o o' h1 h2 hle
    obtain ⟨p, p1, p2⟩ := at' _ _ (l1 x hx)
    obtain ⟨p', p3, p4⟩ := at' _ _ (l1 y hy)
    dsimp only at h1 h2
    rw [h1] at p1
    rw [h2] at p3
    cases p1
    cases p3
    have := p2.start
    have := p4.finish
    omega
  · rw [List.map_map]
    exact l4

end KM.Props
