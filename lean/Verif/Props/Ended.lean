import Verif.Props.Modest
/-
The end of a connection as its client sees it (C115).
-/
namespace KM.Props
open KM Spec

/-- After it has closed the connection, the mock does nothing more for it. -/
theorem closed_last {sv : Server} {inb : Bytes} {l : List REv} {q : Prog Unit} (h : Conv sv inb l q) {l1 l2 : List REv} (hl : l = l1 ++ ⟨.close, ()⟩ :: l2) : l2 = [] := by
  have hne : ∀ {l : List REv}, (∀ e ∈ l, Inner e.act) → (⟨.close, ()⟩ : REv) ∉ l := fun h he => h _ he
  induction h generalizing l1 with
  | head => cases l1 <;> cases hl
  | part hn h _ =>
    rcases h with rfl | ⟨d, rfl⟩ | rfl | ⟨r, rfl⟩
    · cases l1 <;> cases hl
    · obtain ⟨l1', rfl, e⟩ := split_after (a := [⟨.isDone, d⟩]) (b := []) hl (by simp)
      cases l1' <;> cases e
    · rcases l1 with _ | ⟨_, _ | ⟨_, _ | _⟩⟩ <;> cases hl
      rfl
    · obtain ⟨l1', rfl, e⟩ := split_after (a := [⟨.isDone, false⟩, ⟨.recv, r⟩]) (b := []) hl (by simp)
      cases l1' <;> cases e
  | @timeout inb l q hn h ih =>
    obtain ⟨l1', rfl, e⟩ := split_after (a := [⟨.isDone, false⟩, ⟨.recv, .timeout⟩]) (b := l) hl (by simp)
    exact ih e
  | @ignored inb b l q hn h ih =>
    obtain ⟨l1', rfl, e⟩ := split_after (a := [⟨.isDone, false⟩, ⟨.recv, .data b⟩, ⟨.isStopping, true⟩]) (b := l) hl (by simp)
    exact ih e
  | @read inb b l q hn h ih =>
    obtain ⟨l1', rfl, e⟩ := split_after (a := [⟨.isDone, false⟩, ⟨.recv, .data b⟩, ⟨.isStopping, false⟩]) (b := l) hl (by simp)
    exact ih e
  | huge => cases l1 <;> cases hl
  | begin => cases l1 <;> cases hl
  | @serving inb m l x q hm hd _ =>
    have hi := dispatcher_inner hd
    have : (⟨.close, ()⟩ : REv) ∈ (⟨.reqBegin m, ()⟩ : REv) :: l := by rw [hl]; simp
    rcases List.mem_cons.1 this with h | h
    · cases h
    · exact absurd h (hne hi)
  | @rejected inb m l hm hd =>
    have hi := dispatcher_inner hd
    have : (⟨.close, ()⟩ : REv) ∈ (⟨.reqBegin m, ()⟩ : REv) :: (l ++ [⟨.reqEnd, ()⟩]) := by rw [hl]; simp
    rcases List.mem_cons.1 this with h | h
    · cases h
    · rcases List.mem_append.1 h with h | h
      · exact absurd h (hne hi)
      · cases List.mem_singleton.1 h
  | @served inb m l l2' q hm hd h ih =>
    have hi := dispatcher_inner hd
    obtain ⟨l1', rfl, e⟩ := split_after (a := ⟨.reqBegin m, ()⟩ :: (l ++ [⟨.reqEnd, ()⟩])) (b := l2') (l1 := l1) (by rw [← hl]; simp) (by
      intro h
      rcases List.mem_cons.1 h with h | h
      · cases h
      · rcases List.mem_append.1 h with h | h
        · exact absurd h (hne hi)
        · cases List.mem_singleton.1 h)
    exact ih e

/-- When it closes the connection, it has written a complete response for each request taken up, and nothing else. -/
theorem closed_answered {sv : Server} {inb : Bytes} {l : List REv} {q : Prog Unit} (h : Conv sv inb l q) (hc : (⟨.close, ()⟩ : REv) ∈ l) (ha : AllSent l) (hs : SmallReplies sv l) :
    Framed (sent l) (frames (sent l)) ∧ (frames (sent l)).length = (served l).length := by
  have hne : ∀ {l : List REv}, (∀ e ∈ l, Inner e.act) → (⟨.close, ()⟩ : REv) ∉ l := fun h he => h _ he
  induction h with
  | head => cases hc
  | part hn h _ =>
    rcases h with rfl | ⟨d, rfl⟩ | rfl | ⟨r, rfl⟩
    · cases hc
    · simp at hc
    · exact ⟨.nil, rfl⟩
    · simp at hc
  | @timeout inb l q hn h ih => exact ih (by simpa using hc) (allSent_tail (allSent_tail ha)) (SmallReplies.tail (a := [_, _]) hs)
  | @ignored inb b l q hn h ih => exact ih (by simpa using hc) (allSent_tail (allSent_tail (allSent_tail ha))) (SmallReplies.tail (a := [_, _, _]) hs)
  | @read inb b l q hn h ih => exact ih (by simpa using hc) (allSent_tail (allSent_tail (allSent_tail ha))) (SmallReplies.tail (a := [_, _, _]) hs)
  | huge => cases hc
  | begin => cases hc
  | @serving inb m l x q hm hd _ =>
    rcases List.mem_cons.1 hc with h | h
    · cases h
    · exact absurd h (hne (dispatcher_inner hd))
  | @rejected inb m l hm hd =>
    rcases List.mem_cons.1 hc with h | h
    · cases h
    · rcases List.mem_append.1 h with h | h
      · exact absurd h (hne (dispatcher_inner hd))
      · cases List.mem_singleton.1 h
  | @served inb m l l' q hm hd h ih =>
    have hc' : (⟨.close, ()⟩ : REv) ∈ l' := by
      rcases List.mem_cons.1 hc with h | h
      · cases h
      · rcases List.mem_append.1 h with h | h
        · exact absurd h (hne (dispatcher_inner hd))
        · rcases List.mem_cons.1 h with h | h
          · cases h
          · exact h
    have ha' : AllSent (l ++ ⟨.reqEnd, ()⟩ :: l') := allSent_tail ha
    have hs' : SmallReplies sv l' := SmallReplies.tail (a := ⟨.reqBegin m, ()⟩ :: (l ++ [⟨.reqEnd, ()⟩])) (by simpa using hs)
    obtain ⟨k1, k2⟩ := ih hc' (allSent_tail (allSent_right ha')) hs'
    rcases dispatcher_writes hd (allSent_left ha') with ⟨_, h1⟩ | ⟨pre, c, payload, h1, h2, h3, ⟨t, rfl⟩, ⟨h4, _⟩ | ⟨_, h4⟩⟩
    · exact absurd rfl h1
    · exact absurd rfl h4
    · have hz := hs [] m pre (t ++ ⟨.reqEnd, ()⟩ :: l') c payload (by simp) h1 h3
      have hw : sent (⟨.reqBegin m, ()⟩ :: (pre ++ t ++ ⟨.reqEnd, ()⟩ :: l')) = responseSize payload ++ (encodeInt32 c ++ payload) ++ sent l' := by
        rw [h4, sent_reqBegin, List.append_assoc, sent_silent h1, sent_append, sent_replyWrites, sent_reqEnd]
      have hl : (responseSize payload).length = 4 := by simp [responseSize, encodeInt32]
      have hb : be (responseSize payload) = (encodeInt32 c ++ payload).length := by rw [be_responseSize hz]; simp [encodeInt32]
      have hv : served (⟨.reqBegin m, ()⟩ :: (pre ++ t ++ ⟨.reqEnd, ()⟩ :: l')) = m :: served l' := by
        show m :: served (pre ++ t ++ ⟨.reqEnd, ()⟩ :: l') = _
        rw [served_inner (dispatcher_inner hd)]
        rfl
      rw [hw, frames_cons hl hb, hv]
      exact ⟨.cons hl hb k1, by simp [k2]⟩

/-- The client of connection `c` has come to the end of what the mock sends: the mock has closed the connection, the client has received all that was under way, and no write of the mock has
failed. (The client sees the end of the stream, not an error.) -/
structure EndSeen (tr : List NEv) (n : Net) (c : Nat) : Prop where
  closed : (⟨.close, ()⟩ : REv) ∈ actsOf c (mocks tr)
  all : (n.links c).down = []
  sound : (n.links c).broken = false

theorem EndSeen.sent {sv : Server} {clock : Int} {tr : List NEv} {n : Net} (h : Net.Run (Net.new sv clock) tr n) {c : Nat} (he : EndSeen tr n c) :
    AllSent (actsOf c (mocks tr)) ∧ got c tr = Spec.sent (actsOf c (mocks tr)) := by
  have hf := h.flow c (l := []) (g := []) (.whole (by intro b hb; cases hb))
  rw [he.all, he.sound] at hf
  simp only [List.nil_append, List.append_nil] at hf
  generalize hg : got c tr = g at hf
  cases hf with
  | whole h => exact ⟨h, rfl⟩

/-- The requests taken up are the first that the client has sent. -/
theorem served_first {sv : Server} {clock : Int} {tr : List NEv} {n : Net} (h : Net.Run (Net.new sv clock) tr n) (c : Nat) :
    served (actsOf c (mocks tr)) = (frames (asked c tr)).take (served (actsOf c (mocks tr))).length := by
  refine List.prefix_iff_eq_take.1 ?_
  obtain ⟨q, hq⟩ := acts_own h.sys c
  have h1 := served_frames (handle_conv hq)
  rw [List.nil_append] at h1
  obtain ⟨x, hx⟩ := received_readIn (handle_conv hq) (h.never_stopping c)
  have h2 := frames_append (received (actsOf c (mocks tr))) (x ++ (n.links c).up)
  rw [← List.append_assoc, hx, ← h.asked c] at h2
  exact h1.trans (by simpa [Net.new] using h2)

/-- **C115**: when a client has come to the end of what the mock sends on its connection, it has received complete responses and nothing else; their number is the number of requests that the
mock has ever taken up on the connection, which are the first that the client has sent; and whatever happens after that, the mock does nothing more for the connection. -/
theorem C115 {sv : Server} {clock : Int} {tr : List NEv} {n : Net} (h : Net.Run (Net.new sv clock) tr n) {c : Nat} (hs : SmallReplies sv (actsOf c (mocks tr))) (he : EndSeen tr n c) :
    Framed (got c tr) (frames (got c tr)) ∧ served (actsOf c (mocks tr)) = (frames (asked c tr)).take (frames (got c tr)).length ∧
      ∀ tr' n', Net.Run n tr' n' → actsOf c (mocks tr') = [] := by
  obtain ⟨q, hq⟩ := acts_own h.sys c
  obtain ⟨a1, a2⟩ := he.sent h
  obtain ⟨h1, h2⟩ := closed_answered (handle_conv hq) he.closed a1 hs
  rw [a2]
  refine ⟨h1, by rw [h2]; exact served_first h c, fun tr' n' h' => ?_⟩
  obtain ⟨q', hq'⟩ := acts_own (h.append h').sys c
  rw [mocks_append, actsOf_append] at hq'
  obtain ⟨l1, l2, e⟩ := List.append_of_mem he.closed
  have := closed_last (handle_conv hq') (l1 := l1) (l2 := l2 ++ actsOf c (mocks tr')) (by rw [e]; simp)
  exact (List.append_eq_nil_iff.1 this).2

/-- A cancelled context has been cancelled by somebody. -/
theorem net_tells {n n' : Net} {tr : List NEv} (h : Net.Run n tr n') {g : Nat} (hn : ∀ e ∈ mocks tr, ∀ c r, e ≠ .conn c .cancel r) (h0 : n.sys.isDone g = false)
    (h1 : n'.sys.isDone g = true) : ∃ u e v n1 n2, tr = u ++ .mock e :: v ∧ Net.Run n u n1 ∧ Net.Step n1 (.mock e) n2 ∧ Net.Run n2 v n' ∧ Tells g n1.sys e := by
  induction h with
  | nil => rw [h0] at h1; cases h1
  | @cons n n1 n2 e es h hs ih =>
    have later : n1.sys.isDone g = false → (∀ e ∈ mocks es, ∀ c r, e ≠ .conn c .cancel r) →
        ∃ u e' v m1 m2, e :: es = u ++ .mock e' :: v ∧ Net.Run n u m1 ∧ Net.Step m1 (.mock e') m2 ∧ Net.Run m2 v n2 ∧ Tells g m1.sys e' := fun hd hn => by
      obtain ⟨u, e', v, m1, m2, h2, h3, h4⟩ := ih hn hd h1
      exact ⟨e :: u, e', v, m1, m2, by rw [h2]; rfl, .cons h h3, h4⟩
    cases e with
    | send => cases h; exact later h0 hn
    | receive => cases h; exact later h0 hn
    | mock e =>
      have hn' : ∀ e' ∈ e :: mocks es, ∀ c r, e' ≠ .conn c .cancel r := hn
      cases hd : n1.sys.isDone g with
      | false => exact later hd fun e' he => hn' e' (List.mem_cons_of_mem _ he)
      | true =>
        refine ⟨[], e, es, n, n1, rfl, .nil n, h, hs, ?_⟩
        cases h with
        | mock h _ => exact step_tells h (hn' e List.mem_cons_self) h0 hd

/-- **C115**, who has closed it: the mock had been told to finish. -/
theorem C115_told {sv : Server} {clock : Int} {tr : List NEv} {n : Net} (h : Net.Run (Net.new sv clock) tr n) {c : Nat} {k : ConnG} (hk : n.sys.conns[c]? = some k)
    (hc : (⟨.close, ()⟩ : REv) ∈ actsOf c (mocks tr)) :
    ∃ u e v n1 n2, tr = u ++ .mock e :: v ∧ Net.Run (Net.new sv clock) u n1 ∧ Net.Step n1 (.mock e) n2 ∧ Net.Run n2 v n ∧ Tells k.gen n1.sys e ∧
      (⟨.close, ()⟩ : REv) ∈ actsOf c (mocks v) := by
  obtain ⟨t0, t1, e0⟩ := List.append_of_mem (mem_actsOf hc)
  obtain ⟨u0, v0, rfl, _, _⟩ := mocks_split e0
  obtain ⟨n0, r0, r1⟩ := h.split
  cases r1 with
  | @cons _ nc _ _ _ hs r1 =>
    obtain ⟨kx, f, a1, a2, a3⟩ : ∃ kx f, n0.sys.conns[c]? = some kx ∧ kx.pc = .body (.act .close f) ∧ nc.sys.conns[c]? = some { kx with pc := .body (f ()) } := by
      cases hs with
      | mock hs _ =>
        obtain ⟨kx, f, a1, a2, a3⟩ := step_conn_acts hs
        exact ⟨kx, f, a1, a2, a3⟩
    obtain ⟨k', b1, b2, _⟩ := r1.sys.project a3 rfl
    rw [hk] at b1
    cases b1
    have r2 := r0.append (.cons hs (.nil _))
    obtain ⟨ta, e, tb, sa, sb, h1, h2, h3, h4, h5, h6⟩ := C104_told r2.sys a3 (by rw [mocks_append, actsOf_append]; simp [mocks, actsOf])
    have hd : nc.sys.isDone k.gen = true := by rw [b2]; exact run_done h4 (tells_done h3 h5)
    obtain ⟨u, e', v, m1, m2, g1, g2, g3, g4, g5⟩ := net_tells r2 (run_noCancel r2.sys) (by simp [Net.new, Sys.isDone, Sys.new]) hd
    refine ⟨u, e', v ++ v0, m1, m2, ?_, g2, g3, g4.append r1, g5, ?_⟩
    · rw [show u0 ++ .mock (.conn c .close ()) :: v0 = (u0 ++ [.mock (.conn c .close ())]) ++ v0 by simp, g1]; simp
    · rcases List.eq_nil_or_concat v with rfl | ⟨v', x, rfl⟩
      · have := (List.append_inj' g1 rfl).2
        cases this
        rcases g5 with h | ⟨_, _, h, _⟩ <;> cases h
      · have : x = .mock (.conn c .close ()) := by
          have := (List.append_inj' (s₁ := u0) (s₂ := u ++ .mock e' :: v') (t₁ := [.mock (.conn c .close ())]) (t₂ := [x]) (by rw [g1]; simp) rfl).2
          simpa using this.symm
        subst this
        simp [mocks, actsOf]

/-- **C115**, what has been done: whatever change of the data the mock has made for a connection whose client has come to the end, it has made while it served a request to which the client
has received the response. Hence the requests that the client has sent and got no response to have changed nothing (and never will). -/
theorem C115_changes {sv : Server} {clock : Int} {tr : List NEv} {n : Net} (h : Net.Run (Net.new sv clock) tr n) {c : Nat} (hs : SmallReplies sv (actsOf c (mocks tr))) (he : EndSeen tr n c)
    {u v : List NEv} {a : Act} {r : a.Resp} (ht : tr = u ++ .mock (.conn c a r) :: v) (hc : changes a = true) :
    ∃ i m, (frames (asked c u))[i]? = some m ∧ (served (actsOf c (mocks u))).length = i + 1 ∧ i < (frames (got c tr)).length := by
  obtain ⟨q, hq⟩ := acts_own h.sys c
  have e1 : actsOf c (mocks tr) = actsOf c (mocks u) ++ ⟨a, r⟩ :: actsOf c (mocks v) := by
    rw [ht, mocks_append, mocks_cons, actsOf_append, actsOf_append, show mocks [.mock (.conn c a r)] = [.conn c a r] from rfl, actsOf_self]
    rfl
  obtain ⟨x, m, y, d, z, h1, h2, d', h3⟩ := change_served (handle_conv hq) e1 hc
  have h4 : served (actsOf c (mocks u)) = served x ++ [m] := by
    rw [h1, served_append']
    show served x ++ m :: served y = _
    have := served_inner (l := y) (x := []) fun e he => dispatcher_inner h2 e (by rw [h3]; simp [he])
    rw [List.append_nil] at this
    rw [this]
    rfl
  obtain ⟨_, h5, _⟩ := C115 h hs he
  subst ht
  obtain ⟨n1, r1, _⟩ := h.split
  refine ⟨(served x).length, m, taken_up r1 h1, by simp [h4], ?_⟩
  rw [e1, served_append', h4] at h5
  have := congrArg List.length h5
  simp only [List.length_append, List.length_take, List.length_cons, List.length_nil] at this
  omega

end KM.Props
