import Mathlib.Data.List.Forall2
import Verif.Conn
import Verif.Props.Codec
/-
Properties C11-C14: framing of requests and responses on a connection.
-/
namespace KM.Props
open KM Spec

/-! ### The observations on lists without connection actions -/

theorem received_skip {e : REv} {x : List REv} (h : Inner e.act) : received (e :: x) = received x := by
  obtain ⟨a, r⟩ := e
  cases a <;> first | rfl | exact h.elim

theorem served_skip {e : REv} {x : List REv} (h : Inner e.act) : served (e :: x) = served x := by
  obtain ⟨a, r⟩ := e
  cases a <;> first | rfl | exact h.elim

theorem ended_skip {e : REv} {x : List REv} (h : Inner e.act) : ended (e :: x) = ended x := by
  obtain ⟨a, r⟩ := e
  cases a <;> first | rfl | exact h.elim

theorem sent_skip {e : REv} {x : List REv} (h : e.act.socket = false) : sent (e :: x) = sent x := by
  obtain ⟨a, r⟩ := e
  cases a <;> first | rfl | cases h

theorem received_inner {l x : List REv} (h : ∀ e ∈ l, Inner e.act) : received (l ++ x) = received x := by
  induction l with
  | nil => rfl
  | cons e l ih => rw [List.cons_append, received_skip (h e (List.mem_cons_self ..)), ih fun e he => h e (List.mem_cons_of_mem _ he)]

theorem served_inner {l x : List REv} (h : ∀ e ∈ l, Inner e.act) : served (l ++ x) = served x := by
  induction l with
  | nil => rfl
  | cons e l ih => rw [List.cons_append, served_skip (h e (List.mem_cons_self ..)), ih fun e he => h e (List.mem_cons_of_mem _ he)]

theorem ended_inner {l x : List REv} (h : ∀ e ∈ l, Inner e.act) : ended (l ++ x) = ended x := by
  induction l with
  | nil => rfl
  | cons e l ih => rw [List.cons_append, ended_skip (h e (List.mem_cons_self ..)), ih fun e he => h e (List.mem_cons_of_mem _ he)]

theorem sent_silent {l x : List REv} (h : ∀ e ∈ l, e.act.socket = false) : sent (l ++ x) = sent x := by
  induction l with
  | nil => rfl
  | cons e l ih => rw [List.cons_append, sent_skip (h e (List.mem_cons_self ..)), ih fun e he => h e (List.mem_cons_of_mem _ he)]

theorem sent_append (l l2 : List REv) : sent (l ++ l2) = sent l ++ sent l2 := by
  induction l with
  | nil => rfl
  | cons e l ih =>
    obtain ⟨a, r⟩ := e
    cases a with
    | write b => cases r <;> simp [sent, ih]
    | _ => exact ih

/-- An event that is not in the first part of a list is in the second. -/
theorem split_after {a b l1 l2 : List REv} {e : REv} (h : a ++ b = l1 ++ e :: l2) (he : e ∉ a) : ∃ l1', l1 = a ++ l1' ∧ b = l1' ++ e :: l2 := by
  induction a generalizing l1 with
  | nil => exact ⟨l1, rfl, h⟩
  | cons x a ih =>
    cases l1 with
    | nil =>
      simp only [List.cons_append, List.nil_append, List.cons.injEq] at h
      exact absurd (h.1 ▸ List.mem_cons_self ..) he
    | cons y l1 =>
      simp only [List.cons_append, List.cons.injEq] at h
      obtain ⟨rfl, h⟩ := h
      obtain ⟨l1', rfl, h2⟩ := ih h fun hm => he (List.mem_cons_of_mem _ hm)
      exact ⟨l1', rfl, h2⟩

/-! ### C11, C12 -/

theorem served_frames {sv : Server} {inb : Bytes} {l : List REv} {q : Prog Unit} (h : Conv sv inb l q) : served l <+: frames (inb ++ received l) := by
  induction h with
  | head => exact List.nil_prefix
  | part hn hl _ => rcases hl with rfl | ⟨d, rfl⟩ | rfl | ⟨r, rfl⟩ <;> exact List.nil_prefix
  | timeout hn h ih => exact ih
  | ignored hn h ih => exact ih
  | read hn h ih => rw [List.append_assoc] at ih; exact ih
  | huge => exact List.nil_prefix
  | begin => exact List.nil_prefix
  | @serving inb m l x q hm hd _ =>
    have hi := dispatcher_inner hd
    have e1 : served (⟨.reqBegin m, ()⟩ :: l) = [m] := by
      have := served_inner (x := []) hi
      rw [List.append_nil] at this
      show m :: served l = [m]
      rw [this]; rfl
    obtain ⟨h1, h2, h3⟩ := getMessage_ready hm
    rw [e1, frames_append_cons h1, ← h2]
    simp
  | @rejected inb m l hm hd =>
    have hi := dispatcher_inner hd
    have e1 : served (⟨.reqBegin m, ()⟩ :: (l ++ [⟨.reqEnd, ()⟩])) = [m] := by
      show m :: served (l ++ [⟨.reqEnd, ()⟩]) = [m]
      rw [served_inner hi]; rfl
    obtain ⟨h1, h2, h3⟩ := getMessage_ready hm
    rw [e1, frames_append_cons h1, ← h2]
    simp
  | @served inb m l l2 q hm hd h ih =>
    have hi := dispatcher_inner hd
    have e1 : served (⟨.reqBegin m, ()⟩ :: (l ++ ⟨.reqEnd, ()⟩ :: l2)) = m :: served l2 := by
      show m :: served (l ++ ⟨.reqEnd, ()⟩ :: l2) = m :: served l2
      rw [served_inner hi]; rfl
    have e2 : received (⟨.reqBegin m, ()⟩ :: (l ++ ⟨.reqEnd, ()⟩ :: l2)) = received l2 := by
      show received (l ++ ⟨.reqEnd, ()⟩ :: l2) = _
      rw [received_inner hi]; rfl
    obtain ⟨h1, h2, h3⟩ := getMessage_ready hm
    rw [e1, e2, frames_append_cons h1, ← h2, ← h3]
    exact (List.prefix_cons_inj _).2 ih

/-- **C11**: at every moment, the requests processed so far are the first size-prefixed messages of the byte stream received so far.
How the stream was split into reads does not matter: the right-hand side does not depend on it. -/
theorem C11_framing {sv : Server} {w w' : World} {tr : List Ev} {p' : Prog Unit} (h : Exec w (handle sv) tr w' p') :
    served (own tr) <+: frames (received (own tr)) := by
  simpa using served_frames (handle_conv h.own)

/-- **C11**: two connections that have received the same bytes, in whatever pieces, process the same requests (one may be ahead). -/
theorem C11_chunk_independent {sv sv' : Server} {w1 w1' w2 w2' : World} {tr1 tr2 : List Ev} {p1 p2 : Prog Unit}
    (h1 : Exec w1 (handle sv) tr1 w1' p1) (h2 : Exec w2 (handle sv') tr2 w2' p2) (hr : received (own tr1) = received (own tr2)) :
    served (own tr1) <+: served (own tr2) ∨ served (own tr2) <+: served (own tr1) := by
  have c1 := C11_framing h1
  have c2 := C11_framing h2
  rw [← hr] at c2
  exact List.prefix_or_prefix_of_prefix c1 c2

theorem begin_complete {sv : Server} {inb : Bytes} {l : List REv} {q : Prog Unit} (h : Conv sv inb l q) {l1 l2 : List REv} {m : Bytes} {u : Unit}
    (hl : l = l1 ++ ⟨.reqBegin m, u⟩ :: l2) : served l1 ++ [m] <+: frames (inb ++ received l1) := by
  have hne : ∀ {l : List REv}, (∀ e ∈ l, Inner e.act) → (⟨.reqBegin m, u⟩ : REv) ∉ l := fun h he => h _ he
  induction h generalizing l1 with
  | head => cases l1 <;> cases hl
  | part hn h _ =>
    rcases h with rfl | ⟨d, rfl⟩ | rfl | ⟨r, rfl⟩
    · cases l1 <;> cases hl
    · obtain ⟨l1', rfl, e⟩ := split_after (a := [⟨.isDone, d⟩]) (b := []) hl (by simp)
      cases l1' <;> cases e
    · obtain ⟨l1', rfl, e⟩ := split_after (a := [⟨.isDone, true⟩, ⟨.close, ()⟩]) (b := []) hl (by simp)
      cases l1' <;> cases e
    · obtain ⟨l1', rfl, e⟩ := split_after (a := [⟨.isDone, false⟩, ⟨.recv, r⟩]) (b := []) hl (by simp)
      cases l1' <;> cases e
  | @timeout inb l q hn h ih =>
    obtain ⟨l1', rfl, e⟩ := split_after (a := [⟨.isDone, false⟩, ⟨.recv, .timeout⟩]) (b := l) hl (by simp)
    have := ih e
    exact this
  | @ignored inb b l q hn h ih =>
    obtain ⟨l1', rfl, e⟩ := split_after (a := [⟨.isDone, false⟩, ⟨.recv, .data b⟩, ⟨.isStopping, true⟩]) (b := l) hl (by simp)
    have := ih e
    exact this
  | @read inb b l q hn h ih =>
    obtain ⟨l1', rfl, e⟩ := split_after (a := [⟨.isDone, false⟩, ⟨.recv, .data b⟩, ⟨.isStopping, false⟩]) (b := l) hl (by simp)
    have := ih e
    rw [List.append_assoc] at this
    exact this
  | huge => cases l1 <;> cases hl
  | begin => cases l1 <;> cases hl
  | @serving inb m' l x q hm hd _ =>
    have hi := dispatcher_inner hd
    obtain ⟨h1, h2, h3⟩ := getMessage_ready hm
    cases l1 with
    | nil =>
      cases hl
      show [m] <+: _
      rw [frames_append_cons h1, ← h2]; simp
    | cons x l1 =>
      simp only [List.cons_append, List.cons.injEq] at hl
      exact absurd (by rw [hl.2]; simp) (hne hi)
  | @rejected inb m' l hm hd =>
    have hi := dispatcher_inner hd
    obtain ⟨h1, h2, h3⟩ := getMessage_ready hm
    cases l1 with
    | nil =>
      simp only [List.nil_append, List.cons.injEq] at hl
      obtain ⟨hl, _⟩ := hl
      cases hl
      show [m] <+: _
      rw [frames_append_cons h1, ← h2]; simp
    | cons x l1 =>
      simp only [List.cons_append, List.cons.injEq] at hl
      obtain ⟨l1', rfl, e⟩ := split_after hl.2 (hne hi)
      rcases l1' with _ | ⟨_, _ | _⟩ <;> cases e
  | @served inb m' l l2' q hm hd h ih =>
    have hi := dispatcher_inner hd
    obtain ⟨h1, h2, h3⟩ := getMessage_ready hm
    cases l1 with
    | nil =>
      simp only [List.nil_append, List.cons.injEq] at hl
      obtain ⟨hl, _⟩ := hl
      cases hl
      show [m] <+: _
      rw [frames_append_cons h1, ← h2]; simp
    | cons x l1 =>
      simp only [List.cons_append, List.cons.injEq] at hl
      obtain ⟨rfl, hl⟩ := hl
      obtain ⟨l1', rfl, e⟩ := split_after hl (hne hi)
      cases l1' with
      | nil => cases e
      | cons y l1' =>
        simp only [List.cons_append, List.cons.injEq] at e
        obtain ⟨rfl, e⟩ := e
        have := ih e
        have e1 : served (⟨.reqBegin m', ()⟩ :: (l ++ ⟨.reqEnd, ()⟩ :: l1')) = m' :: served l1' := by
          show m' :: served (l ++ ⟨.reqEnd, ()⟩ :: l1') = _
          rw [served_inner hi]; rfl
        have e2 : received (⟨.reqBegin m', ()⟩ :: (l ++ ⟨.reqEnd, ()⟩ :: l1')) = received l1' := by
          show received (l ++ ⟨.reqEnd, ()⟩ :: l1') = _
          rw [received_inner hi]; rfl
        rw [e1, e2, frames_append_cons h1, ← h2, ← h3]
        exact (List.prefix_cons_inj _).2 this

theorem outer_idle {sv : Server} {inb : Bytes} {l : List REv} {q : Prog Unit} (h : Conv sv inb l q) {l1 l2 : List REv} {e : REv} (ho : e.act = .recv ∨ e.act = .close)
    (hl : l = l1 ++ e :: l2) : served l1 = frames (inb ++ received l1) := by
  have hne : ∀ {l : List REv}, (∀ e ∈ l, Inner e.act) → e ∉ l := fun h he => by
    have := h _ he
    rcases ho with x | x <;> rw [x] at this <;> exact this
  have no : ∀ {x : REv}, x.act ≠ .recv → x.act ≠ .close → x ≠ e := fun h1 h2 h3 => by
    rcases ho with x | x <;> rw [← h3] at x
    · exact h1 x
    · exact h2 x
  have here : ∀ {inb : Bytes} {d : Bool}, getMessage inb = .none → served [⟨.isDone, d⟩] = frames (inb ++ received [⟨.isDone, d⟩]) := by
    intro inb d hn
    show [] = frames (inb ++ [])
    rw [List.append_nil, frames_incomplete (getMessage_none hn)]
  induction h generalizing l1 with
  | head => cases l1 <;> cases hl
  | part hn h _ =>
    rcases h with rfl | ⟨d, rfl⟩ | rfl | ⟨r, rfl⟩
    · cases l1 <;> cases hl
    · rcases l1 with _ | ⟨_, _ | _⟩
      · exact absurd (List.cons.inj hl).1 (no nofun nofun)
      · cases hl
      · cases hl
    · rcases l1 with _ | ⟨_, _ | ⟨_, _ | _⟩⟩
      · exact absurd (List.cons.inj hl).1 (no nofun nofun)
      · cases hl; exact here hn
      · cases hl
      · cases hl
    · rcases l1 with _ | ⟨_, _ | ⟨_, _ | _⟩⟩
      · exact absurd (List.cons.inj hl).1 (no nofun nofun)
      · cases hl; exact here hn
      · cases hl
      · cases hl
  | @timeout inb l q hn h ih =>
    rcases l1 with _ | ⟨_, _ | ⟨_, l1⟩⟩
    · exact absurd (List.cons.inj hl).1 (no nofun nofun)
    · cases hl; exact here hn
    · simp only [List.cons_append, List.cons.injEq] at hl
      obtain ⟨rfl, rfl, hl⟩ := hl
      have := ih hl
      exact this
  | @ignored inb b l q hn h ih =>
    rcases l1 with _ | ⟨_, _ | ⟨_, _ | ⟨_, l1⟩⟩⟩
    · exact absurd (List.cons.inj hl).1 (no nofun nofun)
    · cases hl; exact here hn
    · exact absurd (List.cons.inj (List.cons.inj (List.cons.inj hl).2).2).1 (no nofun nofun)
    · simp only [List.cons_append, List.cons.injEq] at hl
      obtain ⟨rfl, rfl, rfl, hl⟩ := hl
      have := ih hl
      exact this
  | @read inb b l q hn h ih =>
    rcases l1 with _ | ⟨_, _ | ⟨_, _ | ⟨_, l1⟩⟩⟩
    · exact absurd (List.cons.inj hl).1 (no nofun nofun)
    · cases hl; exact here hn
    · exact absurd (List.cons.inj (List.cons.inj (List.cons.inj hl).2).2).1 (no nofun nofun)
    · simp only [List.cons_append, List.cons.injEq] at hl
      obtain ⟨rfl, rfl, rfl, hl⟩ := hl
      have := ih hl
      rw [List.append_assoc] at this
      exact this
  | huge => cases l1 <;> cases hl
  | begin => cases l1 <;> cases hl
  | @serving inb m' l x q hm hd _ =>
    cases l1 with
    | nil => exact absurd (List.cons.inj hl).1 (no nofun nofun)
    | cons x l1 =>
      simp only [List.cons_append, List.cons.injEq] at hl
      exact absurd (by rw [hl.2]; simp) (hne (dispatcher_inner hd))
  | @rejected inb m' l hm hd =>
    cases l1 with
    | nil => exact absurd (List.cons.inj hl).1 (no nofun nofun)
    | cons x l1 =>
      simp only [List.cons_append, List.cons.injEq] at hl
      obtain ⟨l1', rfl, e⟩ := split_after hl.2 (hne (dispatcher_inner hd))
      rcases l1' with _ | ⟨_, _ | _⟩
      · exact absurd (List.cons.inj e).1 (no nofun nofun)
      · cases e
      · cases e
  | @served inb m' l l2' q hm hd h ih =>
    have hi := dispatcher_inner hd
    obtain ⟨h1, h2, h3⟩ := getMessage_ready hm
    cases l1 with
    | nil => exact absurd (List.cons.inj hl).1 (no nofun nofun)
    | cons x l1 =>
      simp only [List.cons_append, List.cons.injEq] at hl
      obtain ⟨rfl, hl⟩ := hl
      obtain ⟨l1', rfl, e⟩ := split_after hl (hne hi)
      cases l1' with
      | nil => exact absurd (List.cons.inj e).1 (no nofun nofun)
      | cons y l1' =>
        simp only [List.cons_append, List.cons.injEq] at e
        obtain ⟨rfl, e⟩ := e
        have := ih e
        have e1 : served (⟨.reqBegin m', ()⟩ :: (l ++ ⟨.reqEnd, ()⟩ :: l1')) = m' :: served l1' := by
          show m' :: served (l ++ ⟨.reqEnd, ()⟩ :: l1') = _
          rw [served_inner hi]; rfl
        have e2 : received (⟨.reqBegin m', ()⟩ :: (l ++ ⟨.reqEnd, ()⟩ :: l1')) = received l1' := by
          show received (l ++ ⟨.reqEnd, ()⟩ :: l1') = _
          rw [received_inner hi]; rfl
        rw [e1, e2, frames_append_cons h1, ← h2, ← h3, this]

theorem recv_idle {sv : Server} {inb : Bytes} {l : List REv} {q : Prog Unit} (h : Conv sv inb l q) {l1 l2 : List REv} {r : RecvResult}
    (hl : l = l1 ++ ⟨.recv, r⟩ :: l2) : served l1 = frames (inb ++ received l1) := outer_idle h (.inl rfl) hl

/-- **C12**, not before it is complete: when processing of a request begins, all its bytes have been received; it is the next message of
the stream. -/
theorem C12_only_when_complete {sv : Server} {w w' : World} {tr : List Ev} {p' : Prog Unit} (h : Exec w (handle sv) tr w' p')
    {l1 l2 : List REv} {m : Bytes} (hl : own tr = l1 ++ ⟨.reqBegin m, ()⟩ :: l2) : served l1 ++ [m] <+: frames (received l1) := by
  simpa using begin_complete (handle_conv h.own) hl

/-- **C12**, without further input: whenever the server reads from the connection, every complete message it has received has been processed. -/
theorem C12_no_further_input {sv : Server} {w w' : World} {tr : List Ev} {p' : Prog Unit} (h : Exec w (handle sv) tr w' p')
    {l1 l2 : List REv} {r : RecvResult} (hl : own tr = l1 ++ ⟨.recv, r⟩ :: l2) : served l1 = frames (received l1) := by
  simpa using recv_idle (handle_conv h.own) hl

/-! ### C13, C14 -/

/-- **C13**, splitting: a concatenation of framed messages can be split back into exactly those messages, also when more bytes follow. -/
theorem C13_split {s rest : Bytes} {ms : List Bytes} (h : Framed s ms) : frames (s ++ rest) = ms ++ frames rest := by
  induction h with
  | nil => rfl
  | @cons size m s ms hs hm h ih => rw [List.append_assoc (size ++ m), frames_cons hs hm, ih]; rfl

theorem framed_append {s t : Bytes} {ms ns : List Bytes} (h : Framed s ms) (h2 : Framed t ns) : Framed (s ++ t) (ms ++ ns) := by
  induction h with
  | nil => exact h2
  | @cons size m s ms hs hm h ih => rw [List.append_assoc (size ++ m)]; exact .cons hs hm ih

theorem be_responseSize {payload : Bytes} (h : payload.length + 4 < 2 ^ 32) : be (responseSize payload) = 4 + payload.length := by
  rw [responseSize, ← getBE_eq_be, encodeInt32, getBE_putBE, BitVec.toNat_ofNat, Nat.mod_eq_of_lt (by omega), Nat.mod_eq_of_lt (by omega)]

theorem allSent_tail {e : REv} {l : List REv} (h : AllSent (e :: l)) : AllSent l := fun b hb => h b (List.mem_cons_of_mem _ hb)
theorem small_tail {e : REv} {l : List REv} (h : Small (e :: l)) : Small l := fun b ok hb => h b ok (List.mem_cons_of_mem _ hb)
theorem allSent_right {a l : List REv} (h : AllSent (a ++ l)) : AllSent l := fun b hb => h b (List.mem_append_right _ hb)
theorem small_right {a l : List REv} (h : Small (a ++ l)) : Small l := fun b ok hb => h b ok (List.mem_append_right _ hb)
theorem allSent_left {a l : List REv} (h : AllSent (a ++ l)) : AllSent a := fun b hb => h b (List.mem_append_left _ hb)
theorem small_left {a l : List REv} (h : Small (a ++ l)) : Small a := fun b ok hb => h b ok (List.mem_append_left _ hb)

/-- A run of `send` whose writes succeed: it either is not at its end, or has written the whole frame. -/
theorem send_own {c : I32} {payload : Bytes} {l : List REv} {q : Prog DRes} (h : Own (send c payload) l q) (ha : AllSent l) :
    ((q ≠ .ret .done ∧ q ≠ .ret .err ∧ q ≠ .panic) ∧ ∃ k ∈ [[], [responseSize payload], [responseSize payload, encodeInt32 c]],
      l = k.map fun b => ⟨.write b, true⟩) ∨
    q = .ret .done ∧ l = [⟨.write (responseSize payload), true⟩, ⟨.write (encodeInt32 c), true⟩, ⟨.write payload, true⟩] := by
  rcases own_act_inv h with ⟨rfl, rfl⟩ | ⟨r, l1, rfl, h1⟩
  · exact .inl ⟨⟨by simp, by simp, by simp⟩, [], by simp, rfl⟩
  · cases r with
    | false => exact absurd (List.mem_cons_self ..) (ha _)
    | true =>
      rcases own_act_inv h1 with ⟨rfl, rfl⟩ | ⟨r, l2, rfl, h2⟩
      · exact .inl ⟨⟨by simp, by simp, by simp⟩, [_], by simp, rfl⟩
      · cases r with
        | false => exact absurd (List.mem_cons_self ..) (allSent_tail ha _)
        | true =>
          rcases own_act_inv h2 with ⟨rfl, rfl⟩ | ⟨r, l3, rfl, h3⟩
          · exact .inl ⟨⟨by simp, by simp, by simp⟩, [_, _], by simp, rfl⟩
          · cases r with
            | false => exact absurd (List.mem_cons_self ..) (allSent_tail (allSent_tail ha) _)
            | true =>
              obtain ⟨rfl, rfl⟩ := own_ret_inv h3
              exact .inr ⟨rfl, rfl⟩

theorem dispatcher_sent {sv : Server} {m : Bytes} {n : Nat} {l : List REv} (h : Own (dispatcher sv ⟨m⟩ n) l (.ret .done)) (ha : AllSent l)
    (hs : Small l) : ∃ resp, Framed (sent l) [resp] ∧ requestCorrelation m = responseCorrelation resp := by
  rcases dispatcher_own h with ⟨_, h1⟩ | ⟨l1, l2, c, payload, rfl, h1, hc, h2⟩
  · exact absurd rfl h1
  · rcases send_own h2 (allSent_right ha) with ⟨⟨h3, _⟩, _⟩ | ⟨_, rfl⟩
    · exact absurd rfl h3
    · have hb : payload.length + 4 < 2 ^ 32 := hs payload true (by simp)
      refine ⟨encodeInt32 c ++ payload, ?_, ?_⟩
      · rw [sent_silent h1]
        have := Framed.cons (size := responseSize payload) (m := encodeInt32 c ++ payload) (by simp [responseSize])
          (by rw [be_responseSize hb]; simp) .nil
        simpa [sent] using this
      · rw [hc, responseCorrelation, show 4 = (encodeInt32 c).length by simp, List.take_left]

/-- **C13**: a request that is processed to the end with all writes succeeding is answered with one framed response whose size is the
number of bytes that follow, and whose first four bytes are the request's correlation id. `hs` bounds the response below 2^32 bytes. -/
theorem C13_response {sv : Server} {m : Bytes} {w w' : World} {tr : List Ev} (h : Exec w (dispatcher sv ⟨m⟩ m.length) tr w' (.ret .done))
    (ha : AllSent (own tr)) (hs : Small (own tr)) :
    ∃ resp, Framed (sent (own tr)) [resp] ∧ requestCorrelation m = responseCorrelation resp := dispatcher_sent h.own ha hs

theorem conv_responses {sv : Server} {inb : Bytes} {l : List REv} {q : Prog Unit} (h : Conv sv inb l q) (hq : q ≠ .panic) (ha : AllSent l)
    (hs : Small l) : ∃ rs a b, sent l = a ++ b ∧ Framed a rs ∧
      List.Forall₂ (fun m r => requestCorrelation m = responseCorrelation r) ((served l).take rs.length) rs ∧
      ended l ≤ rs.length ∧ rs.length ≤ (served l).length ∧ (served l).length ≤ rs.length + 1 ∧ (rs.length = (served l).length → b = []) := by
  have none : ∀ {l : List REv}, sent l = [] → ended l = 0 → served l = [] → ∃ rs a b, sent l = a ++ b ∧ Framed a rs ∧
      List.Forall₂ (fun m r => requestCorrelation m = responseCorrelation r) ((served l).take rs.length) rs ∧
      ended l ≤ rs.length ∧ rs.length ≤ (served l).length ∧ (served l).length ≤ rs.length + 1 ∧ (rs.length = (served l).length → b = []) := by
    intro l h1 h2 h3
    rw [h1, h2, h3]
    exact ⟨[], [], [], rfl, .nil, .nil, Nat.le_refl _, Nat.le_refl _, Nat.le_succ _, fun _ => rfl⟩
  induction h with
  | head => exact none rfl rfl rfl
  | part hn hl _ => rcases hl with rfl | ⟨d, rfl⟩ | rfl | ⟨r, rfl⟩ <;> exact none rfl rfl rfl
  | timeout hn h ih =>
    have := ih hq (allSent_tail (allSent_tail ha)) (small_tail (small_tail hs))
    exact this
  | ignored hn h ih =>
    have := ih hq (allSent_tail (allSent_tail (allSent_tail ha))) (small_tail (small_tail (small_tail hs)))
    exact this
  | read hn h ih =>
    have := ih hq (allSent_tail (allSent_tail (allSent_tail ha))) (small_tail (small_tail (small_tail hs)))
    exact this
  | huge => exact none rfl rfl rfl
  | begin => exact none rfl rfl rfl
  | @serving inb m l x q hm hd _ =>
    have hi := dispatcher_inner hd
    have e1 : served (⟨.reqBegin m, ()⟩ :: l) = [m] := by
      have := served_inner (x := []) hi
      rw [List.append_nil] at this
      show m :: served l = [m]
      rw [this]; rfl
    have e2 : ended (⟨.reqBegin m, ()⟩ :: l) = 0 := by
      have := ended_inner (x := []) hi
      rw [List.append_nil] at this
      exact this
    rw [e1, e2]
    exact ⟨[], [], sent l, rfl, .nil, .nil, Nat.le_refl _, by simp, by simp, by simp⟩
  | rejected => exact absurd rfl hq
  | @served inb m l l2 q hm hd h ih =>
    have hi := dispatcher_inner hd
    have ha' := allSent_tail ha
    have hs' := small_tail hs
    obtain ⟨resp, hf, hc⟩ := dispatcher_sent hd (allSent_left ha') (small_left hs')
    obtain ⟨rs, a, b, h1, h2, h3, h4, h5, h6, h7⟩ := ih hq (allSent_tail (allSent_right ha')) (small_tail (small_right hs'))
    have e1 : served (⟨.reqBegin m, ()⟩ :: (l ++ ⟨.reqEnd, ()⟩ :: l2)) = m :: served l2 := by
      show m :: served (l ++ ⟨.reqEnd, ()⟩ :: l2) = m :: served l2
      rw [served_inner hi]; rfl
    have e2 : ended (⟨.reqBegin m, ()⟩ :: (l ++ ⟨.reqEnd, ()⟩ :: l2)) = ended l2 + 1 := by
      show ended (l ++ ⟨.reqEnd, ()⟩ :: l2) = _
      rw [ended_inner hi]; rfl
    have e4 : sent (⟨.reqBegin m, ()⟩ :: (l ++ ⟨.reqEnd, ()⟩ :: l2)) = sent l ++ sent l2 := sent_append l (⟨.reqEnd, ()⟩ :: l2)
    rw [e1, e2, e4]
    refine ⟨resp :: rs, sent l ++ a, b, by rw [h1, List.append_assoc], framed_append hf h2, .cons hc h3, by simpa using h4, by simpa using h5,
      by simpa using h6, fun hb => h7 (by simpa using hb)⟩

/-- **C14**: as long as the process has not crashed and no write has failed, the bytes written on a connection are the framed responses
`rs` to the first requests processed, in the same order and with their correlation ids, followed by `rest`: bytes of an answer in progress.
Every request whose processing has ended has its response; a request being processed has at most an unfinished one.
`hs` bounds each response below 2^32 bytes. -/
theorem C14_in_order {sv : Server} {w w' : World} {tr : List Ev} {p' : Prog Unit} (h : Exec w (handle sv) tr w' p') (hp : p' ≠ .panic)
    (ha : AllSent (own tr)) (hs : Small (own tr)) : ∃ rs done rest, sent (own tr) = done ++ rest ∧ Framed done rs ∧
      List.Forall₂ (fun m r => requestCorrelation m = responseCorrelation r) ((served (own tr)).take rs.length) rs ∧
      ended (own tr) ≤ rs.length ∧ rs.length ≤ (served (own tr)).length ∧ (served (own tr)).length ≤ rs.length + 1 ∧
      (rs.length = (served (own tr)).length → rest = []) :=
  conv_responses (handle_conv h.own) hp ha hs

theorem outer_answered {sv : Server} {inb : Bytes} {l : List REv} {q : Prog Unit} (h : Conv sv inb l q) {l1 l2 : List REv} {e : REv} (ho : e.act = .recv ∨ e.act = .close)
    (hl : l = l1 ++ e :: l2) (ha : AllSent l1) (hs : Small l1) :
    ∃ rs, Framed (sent l1) rs ∧ List.Forall₂ (fun m r => requestCorrelation m = responseCorrelation r) (served l1) rs := by
  have hne : ∀ {l : List REv}, (∀ e ∈ l, Inner e.act) → e ∉ l := fun h he => by
    have := h _ he
    rcases ho with x | x <;> rw [x] at this <;> exact this
  have no : ∀ {x : REv}, x.act ≠ .recv → x.act ≠ .close → x ≠ e := fun h1 h2 h3 => by
    rcases ho with x | x <;> rw [← h3] at x
    · exact h1 x
    · exact h2 x
  induction h generalizing l1 with
  | head => cases l1 <;> cases hl
  | part hn h _ =>
    rcases h with rfl | ⟨d, rfl⟩ | rfl | ⟨r, rfl⟩
    · cases l1 <;> cases hl
    · rcases l1 with _ | ⟨_, _ | _⟩
      · exact absurd (List.cons.inj hl).1 (no nofun nofun)
      · cases hl
      · cases hl
    · rcases l1 with _ | ⟨_, _ | ⟨_, _ | _⟩⟩
      · exact absurd (List.cons.inj hl).1 (no nofun nofun)
      · cases hl; exact ⟨[], .nil, .nil⟩
      · cases hl
      · cases hl
    · rcases l1 with _ | ⟨_, _ | ⟨_, _ | _⟩⟩
      · exact absurd (List.cons.inj hl).1 (no nofun nofun)
      · cases hl; exact ⟨[], .nil, .nil⟩
      · cases hl
      · cases hl
  | @timeout inb l q hn h ih =>
    rcases l1 with _ | ⟨_, _ | ⟨_, l1⟩⟩
    · exact absurd (List.cons.inj hl).1 (no nofun nofun)
    · cases hl; exact ⟨[], .nil, .nil⟩
    · simp only [List.cons_append, List.cons.injEq] at hl
      obtain ⟨rfl, rfl, hl⟩ := hl
      have := ih hl (allSent_tail (allSent_tail ha)) (small_tail (small_tail hs))
      exact this
  | @ignored inb b l q hn h ih =>
    rcases l1 with _ | ⟨_, _ | ⟨_, _ | ⟨_, l1⟩⟩⟩
    · exact absurd (List.cons.inj hl).1 (no nofun nofun)
    · cases hl; exact ⟨[], .nil, .nil⟩
    · exact absurd (List.cons.inj (List.cons.inj (List.cons.inj hl).2).2).1 (no nofun nofun)
    · simp only [List.cons_append, List.cons.injEq] at hl
      obtain ⟨rfl, rfl, rfl, hl⟩ := hl
      have := ih hl (allSent_tail (allSent_tail (allSent_tail ha))) (small_tail (small_tail (small_tail hs)))
      exact this
  | @read inb b l q hn h ih =>
    rcases l1 with _ | ⟨_, _ | ⟨_, _ | ⟨_, l1⟩⟩⟩
    · exact absurd (List.cons.inj hl).1 (no nofun nofun)
    · cases hl; exact ⟨[], .nil, .nil⟩
    · exact absurd (List.cons.inj (List.cons.inj (List.cons.inj hl).2).2).1 (no nofun nofun)
    · simp only [List.cons_append, List.cons.injEq] at hl
      obtain ⟨rfl, rfl, rfl, hl⟩ := hl
      have := ih hl (allSent_tail (allSent_tail (allSent_tail ha))) (small_tail (small_tail (small_tail hs)))
      exact this
  | huge => cases l1 <;> cases hl
  | begin => cases l1 <;> cases hl
  | @serving inb m' l x q hm hd _ =>
    cases l1 with
    | nil => exact absurd (List.cons.inj hl).1 (no nofun nofun)
    | cons x l1 =>
      simp only [List.cons_append, List.cons.injEq] at hl
      exact absurd (by rw [hl.2]; simp) (hne (dispatcher_inner hd))
  | @rejected inb m' l hm hd =>
    cases l1 with
    | nil => exact absurd (List.cons.inj hl).1 (no nofun nofun)
    | cons x l1 =>
      simp only [List.cons_append, List.cons.injEq] at hl
      obtain ⟨l1', rfl, e⟩ := split_after hl.2 (hne (dispatcher_inner hd))
      rcases l1' with _ | ⟨_, _ | _⟩
      · exact absurd (List.cons.inj e).1 (no nofun nofun)
      · cases e
      · cases e
  | @served inb m' l l2' q hm hd h ih =>
    have hi := dispatcher_inner hd
    cases l1 with
    | nil => exact absurd (List.cons.inj hl).1 (no nofun nofun)
    | cons x l1 =>
      simp only [List.cons_append, List.cons.injEq] at hl
      obtain ⟨rfl, hl⟩ := hl
      obtain ⟨l1', rfl, e⟩ := split_after hl (hne hi)
      cases l1' with
      | nil => exact absurd (List.cons.inj e).1 (no nofun nofun)
      | cons y l1' =>
        simp only [List.cons_append, List.cons.injEq] at e
        obtain ⟨rfl, e⟩ := e
        have ha' := allSent_tail ha
        have hs' := small_tail hs
        obtain ⟨resp, hf, hc⟩ := dispatcher_sent hd (allSent_left ha') (small_left hs')
        obtain ⟨rs, h1, h2⟩ := ih e (allSent_tail (allSent_right ha')) (small_tail (small_right hs'))
        have e1 : served (⟨.reqBegin m', ()⟩ :: (l ++ ⟨.reqEnd, ()⟩ :: l1')) = m' :: served l1' := by
          show m' :: served (l ++ ⟨.reqEnd, ()⟩ :: l1') = _
          rw [served_inner hi]; rfl
        have e4 : sent (⟨.reqBegin m', ()⟩ :: (l ++ ⟨.reqEnd, ()⟩ :: l1')) = sent l ++ sent l1' := sent_append l (⟨.reqEnd, ()⟩ :: l1')
        rw [e1, e4]
        exact ⟨resp :: rs, framed_append hf h1, .cons hc h2⟩

/-- **C14**: whenever the server reads from the connection, it has answered every complete request received, each once and in order,
and written nothing else. -/
theorem C14_all_answered {sv : Server} {w w' : World} {tr : List Ev} {p' : Prog Unit} (h : Exec w (handle sv) tr w' p')
    {l1 l2 : List REv} {r : RecvResult} (hl : own tr = l1 ++ ⟨.recv, r⟩ :: l2) (ha : AllSent l1) (hs : Small l1) :
    ∃ rs, Framed (sent l1) rs ∧ List.Forall₂ (fun m r => requestCorrelation m = responseCorrelation r) (frames (received l1)) rs := by
  rw [← C12_no_further_input h hl]
  exact outer_answered (handle_conv h.own) (.inl rfl) hl ha hs

/-! ### Examples: the hypotheses can be met -/

/-- A Heartbeat request (api 12 version 0, correlation id 7, client id "c", group "g", generation 1, member "m"), with its size. -/
def heartbeatBytes : Bytes := [0, 0, 0, 21, 0, 12, 0, 0, 0, 0, 0, 7, 0, 1, 99, 0, 1, 103, 0, 0, 0, 1, 0, 1, 109]

/-- The request arrives in three pieces, the last one with the start of a second request; it is answered. -/
def heartbeatSched : List Sched :=
  [.own, .own, .recv (heartbeatBytes.take 3), .own, .own, .own, .recv ((heartbeatBytes.drop 3).take 10), .own, .own, .own,
   .recv (heartbeatBytes.drop 13 ++ heartbeatBytes.take 6), .own, .own, .own, .own, .own, .own, .own, .own, .own, .own]

def REv.failedWrite : REv → Bool
  | ⟨.write _, false⟩ => true
  | _ => false

def REv.bigWrite : REv → Bool
  | ⟨.write b, _⟩ => decide (2 ^ 32 ≤ b.length + 4)
  | _ => false

theorem allSent_of {l : List REv} (h : l.all (fun e => !REv.failedWrite e) = true) : AllSent l := by
  intro b hb
  have := List.all_eq_true.1 h _ hb
  cases this

theorem small_of {l : List REv} (h : l.all (fun e => !REv.bigWrite e) = true) : Small l := by
  intro b ok hb
  have := List.all_eq_true.1 h _ hb
  have : b.length < 4294967292 := by simpa [REv.bigWrite] using this
  omega

def reads : List REv → Bool
  | [⟨.recv, .timeout⟩] => true
  | _ => false

theorem reads_eq {l : List REv} (h : reads l = true) : l = [⟨.recv, .timeout⟩] := by
  unfold reads at h
  split at h
  · rfl
  · cases h

def Prog.crashed {α : Type} : Prog α → Bool
  | .panic => true
  | _ => false

/-- The run of the example. -/
def heartbeatRun : List Ev × World × Prog Unit := Prog.run heartbeatSched (World.init 0) (handle ⟨9092, []⟩)

/-- C11, C12, C13, C14: the hypotheses hold of a run in which the request came in three pieces and was answered, and the server reads again. -/
example : ∃ (tr : List Ev) (w' : World) (p' : Prog Unit) (l1 l2 : List REv) (r : RecvResult),
    Exec (World.init 0) (handle ⟨9092, []⟩) tr w' p' ∧ p' ≠ .panic ∧ AllSent (own tr) ∧ Small (own tr) ∧
    own tr = l1 ++ ⟨.recv, r⟩ :: l2 ∧ served l1 = [heartbeatBytes.drop 4] ∧ frames (received l1) = [heartbeatBytes.drop 4] ∧
    sent (own tr) = [0, 0, 0, 6, 0, 0, 0, 7, 0, 0] := by
  refine ⟨heartbeatRun.1, heartbeatRun.2.1, heartbeatRun.2.2, (own heartbeatRun.1).take 15, [], .timeout, Prog.run_sound _ _ _, ?_,
    allSent_of (by decide +kernel), small_of (by decide +kernel), ?_, by decide +kernel, by decide +kernel, by decide +kernel⟩
  · have : Prog.crashed heartbeatRun.2.2 = false := by decide +kernel
    intro h
    rw [h] at this
    cases this
  · rw [← reads_eq (l := (own heartbeatRun.1).drop 15) (by decide +kernel), List.take_append_drop]

/-- C13: the same for the dispatcher alone. -/
example : ∃ (tr : List Ev) (w' : World), Exec (World.init 0) (dispatcher ⟨9092, []⟩ ⟨heartbeatBytes.drop 4⟩ (heartbeatBytes.drop 4).length) tr w' (.ret .done) ∧
    AllSent (own tr) ∧ Small (own tr) ∧ sent (own tr) = [0, 0, 0, 6, 0, 0, 0, 7, 0, 0] :=
  ⟨_, _, Prog.run_ret (sch := go 20) rfl, allSent_of (by decide +kernel), small_of (by decide +kernel), by decide +kernel⟩

end KM.Props
