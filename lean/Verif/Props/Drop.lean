import Verif.Props.Wire
/-
Property C66: what the mock does when a response cannot be sent.
-/
namespace KM.Props
open KM

/-- The probe found what it finds when the client has closed the connection, or when the connection is gone altogether, or when the client has sent
more than was read. -/
def dropped : Probe → Prop
  | .noFile | .byte | .eof => True
  | .again | .error => False

/-- The own actions of a response: at most three writes; after a write that fails there is only the probe. -/
theorem send_failed {c : I32} {b : Bytes} {l : List REv} {x : Prog DRes} (h : Own (send c b) l x) {l1 l2 : List REv} {d : Bytes}
    (e : l = l1 ++ ⟨.write d, false⟩ :: l2) : (l2 = [] ∧ x = sendFailed) ∨ ∃ p, l2 = [⟨.isConnected, p⟩] ∧ x = .ret (if p.connected then .err else .done) := by
  have hf : ∀ {l : List REv}, Own sendFailed l x → (l = [] ∧ x = sendFailed) ∨ ∃ p, l = [⟨.isConnected, p⟩] ∧ x = .ret (if p.connected then .err else .done) := by
    intro l h
    rcases own_act_inv h with ⟨hx, e⟩ | ⟨p, l', e, h⟩
    · exact .inl ⟨e, hx⟩
    · obtain ⟨e2, e3⟩ := own_ret_inv h
      exact .inr ⟨p, by rw [e, e3], e2⟩
  -- one write, then the rest
  have hw : ∀ {d' : Bytes} {k : Bool → Prog DRes} {l l1 : List REv}, Own (.act (.write d') k) l x → k false = sendFailed → l = l1 ++ ⟨.write d, false⟩ :: l2 →
      ((l2 = [] ∧ x = sendFailed) ∨ ∃ p, l2 = [⟨.isConnected, p⟩] ∧ x = .ret (if p.connected then .err else .done)) ∨
      ∃ l' l1', Own (k true) l' x ∧ l' = l1' ++ ⟨.write d, false⟩ :: l2 := by
    intro d' k l l1 h hk e
    rcases own_act_inv h with ⟨_, e'⟩ | ⟨ok, l', e', h⟩
    · rw [e'] at e; cases l1 <;> cases e
    · cases l1 with
      | nil =>
        rw [e'] at e
        cases e
        rw [hk] at h
        exact .inl (hf h)
      | cons y l1 =>
        rw [e'] at e
        cases e
        cases ok with
        | true => exact .inr ⟨_, l1, h, rfl⟩
        | false =>
          rw [hk] at h
          rcases hf h with ⟨e, _⟩ | ⟨p, e, _⟩
          · cases l1 <;> cases e
          · cases l1 with
            | nil => cases e
            | cons y l1 => cases l1 <;> cases e
  rcases hw h rfl e with h | ⟨_, _, h, e⟩
  · exact h
  rcases hw h rfl e with h | ⟨_, _, h, e⟩
  · exact h
  rcases hw h rfl e with h | ⟨_, l1', h, e⟩
  · exact h
  obtain ⟨_, e2⟩ := own_ret_inv h
  rw [e2] at e
  cases l1' <;> cases e

theorem dispatcher_failed {sv : Server} {m : Bytes} {n : Nat} {l : List REv} {x : Prog DRes} (h : Own (dispatcher sv ⟨m⟩ n) l x) {l1 l2 : List REv} {d : Bytes}
    (e : l = l1 ++ ⟨.write d, false⟩ :: l2) : (l2 = [] ∧ x = sendFailed) ∨ ∃ p, l2 = [⟨.isConnected, p⟩] ∧ x = .ret (if p.connected then .err else .done) := by
  rcases dispatcher_own h with ⟨h1, _⟩ | ⟨la, lb, c, payload, e', h1, _, h2⟩
  · have := h1 ⟨.write d, false⟩ (by rw [e]; simp)
    cases this
  · rw [e'] at e
    rcases List.append_eq_append_iff.1 e with ⟨as, ea, eb⟩ | ⟨bs, ea, eb⟩
    · exact send_failed h2 eb
    · cases bs with
      | nil => exact send_failed h2 (l1 := []) (by simpa using eb.symm)
      | cons y bs =>
        have : y = ⟨.write d, false⟩ := by cases eb; rfl
        have := h1 y (by rw [ea]; simp)
        subst y
        cases this

/-- What follows a write that failed. -/
theorem handle_failed {sv : Server} {inb : Bytes} {l : List REv} {q : Prog Unit} (h : Own (.loop inb (handleBody sv) .ret) l q) {l1 l2 : List REv} {d : Bytes}
    (e : l = l1 ++ ⟨.write d, false⟩ :: l2) :
    l2 = [] ∨ ∃ p l3, l2 = ⟨.isConnected, p⟩ :: l3 ∧ (l3 = [] ∧ (∃ a k, q = .act a k) ∨ ∃ l4, l3 = ⟨.reqEnd, ()⟩ :: l4 ∧
      if p.connected then l4 = [] ∧ q = .panic else ∃ rest, Own (.loop rest (handleBody sv) .ret) l4 q) := by
  generalize hn : l.length = n
  induction n using Nat.strongRecOn generalizing l inb l1 with
  | ind n ih =>
    rcases own_loop_inv h with ⟨rfl, rfl⟩ | h
    · cases l1 <;> cases e
    · unfold Prog.unroll at h
      unfold handleBody at h
      cases hg : getMessage inb with
      | panic =>
        rw [hg] at h
        obtain ⟨rfl, rfl⟩ := own_panic_inv h
        cases l1 <;> cases e
      | none =>
        rw [hg] at h
        rcases own_act_inv h with ⟨rfl, rfl⟩ | ⟨b, l', rfl, h1⟩
        · cases l1 <;> cases e
        · cases l1 with
          | nil => cases e
          | cons _ l1 =>
          cases e
          cases b with
          | true =>
            rcases own_act_inv h1 with ⟨rfl, e⟩ | ⟨u, l2, e, h2⟩
            · cases l1 <;> cases e
            · obtain ⟨_, rfl⟩ := own_ret_inv h2
              cases l1 with
              | nil => cases e
              | cons _ l1 => cases l1 <;> cases e
          | false =>
            rcases own_act_inv h1 with ⟨rfl, e⟩ | ⟨r, l3, e, h2⟩
            · cases l1 <;> cases e
            · cases l1 with
              | nil => cases e
              | cons _ l1 =>
              cases e
              cases r with
              | timeout =>
                refine ih _ ?_ h2 rfl rfl
                simp only [List.length_cons, List.append_eq, List.length_append] at hn ⊢; omega
              | closed =>
                obtain ⟨_, e⟩ := own_ret_inv h2
                cases l1 <;> cases e
              | failed =>
                obtain ⟨_, e⟩ := own_panic_inv h2
                cases l1 <;> cases e
              | data b =>
                rcases own_act_inv h2 with ⟨rfl, e⟩ | ⟨s, l3, e, h3⟩
                · cases l1 <;> cases e
                · cases l1 with
                  | nil => cases e
                  | cons _ l1 =>
                  cases e
                  refine ih _ ?_ h3 rfl rfl
                  simp only [List.length_cons, List.append_eq, List.length_append] at hn ⊢; omega
      | ready m =>
        rw [hg] at h
        rcases own_act_inv h with ⟨rfl, rfl⟩ | ⟨u, l', rfl, h1⟩
        · cases l1 <;> cases e
        · cases l1 with
          | nil => cases e
          | cons _ l1 =>
          cases e
          dsimp only at h1
          rw [Prog.bind_assoc] at h1
          rcases own_bind_inv h1 with ⟨x, h2, rfl⟩ | ⟨la, lb, res, h2, h3, e⟩
          · rcases dispatcher_failed h2 rfl with ⟨h, _⟩ | ⟨p, e1, rfl⟩
            · exact .inl h
            · exact .inr ⟨p, [], e1, .inl ⟨rfl, _, _, rfl⟩⟩
          · rcases List.append_eq_append_iff.1 e.symm with ⟨as, ea, eb⟩ | ⟨bs, ea, eb⟩
            · -- the write comes after this request
              rcases own_act_inv h3 with ⟨_, e'⟩ | ⟨_, l4, e', h4⟩
              · rw [e'] at eb; cases as <;> cases eb
              · subst e'
                cases as with
                | nil => cases eb
                | cons y as =>
                cases eb
                subst ea
                cases res with
                | err =>
                  obtain ⟨_, e⟩ := own_panic_inv h4
                  cases as <;> cases e
                | done =>
                  refine ih _ ?_ h4 rfl rfl
                  simp only [List.length_cons, List.append_eq, List.length_append] at hn ⊢; omega
            · -- the write belongs to this request
              cases bs with
              | nil =>
                rcases own_act_inv h3 with ⟨_, e'⟩ | ⟨_, l4, e', h4⟩ <;> rw [e'] at eb <;> cases eb
              | cons y bs =>
                cases eb
                rcases dispatcher_failed h2 ea with ⟨_, h⟩ | ⟨p, e1, e2⟩
                · cases h
                · subst e1
                  refine .inr ⟨p, _, rfl, ?_⟩
                  rcases own_act_inv h3 with ⟨rfl, rfl⟩ | ⟨_, l4, rfl, h4⟩
                  · exact .inl ⟨rfl, _, _, rfl⟩
                  · refine .inr ⟨l4, rfl, ?_⟩
                    cases hp : p.connected <;> rw [hp] at e2 <;> cases e2
                    · exact ⟨_, h4⟩
                    · obtain ⟨rfl, rfl⟩ := own_panic_inv h4
                      exact ⟨rfl, rfl⟩

theorem loop_panics {sv : Server} {inb : Bytes} (h : Own (.loop inb (handleBody sv) .ret) [] .panic) : getMessage inb = .panic := by
  rcases own_loop_inv h with ⟨h, _⟩ | h
  · cases h
  unfold Prog.unroll handleBody at h
  cases hg : getMessage inb with
  | panic => rfl
  | none =>
    rw [hg] at h
    rcases own_act_inv h with ⟨h, _⟩ | ⟨_, _, h, _⟩ <;> cases h
  | ready m =>
    rw [hg] at h
    rcases own_act_inv h with ⟨h, _⟩ | ⟨_, _, h, _⟩ <;> cases h

theorem conn_failed {sv : Server} {clock : Int} {tr : List SEv} {s : Sys} (h : Sys.Run (Sys.new sv clock) tr s) {c : Nat} {k : ConnG}
    (hk : s.conns[c]? = some k) {l1 l2 : List REv} {d : Bytes} (e : actsOf c tr = l1 ++ ⟨.write d, false⟩ :: l2) :
    ∃ q, (k.pc = .body q ∨ ((∀ q, k.pc ≠ .body q) ∧ q = .ret ())) ∧ (l2 = [] ∨ ∃ p l3, l2 = ⟨.isConnected, p⟩ :: l3 ∧ (l3 = [] ∧ (∃ a k, q = .act a k) ∨
      ∃ l4, l3 = ⟨.reqEnd, ()⟩ :: l4 ∧ if p.connected then l4 = [] ∧ q = .panic else ∃ rest, Own (.loop rest (handleBody sv) .ret) l4 q)) := by
  obtain ⟨w, w', es, q, h1, h2, h3⟩ := h.connection hk
  exact ⟨q, h3, handle_failed h1.own (h2.trans e)⟩

/-- **C66**: when a write fails, nothing more is written of that response: the connection probes the client's side and is done with the request. -/
theorem C66_stops {sv : Server} {clock : Int} {tr : List SEv} {s : Sys} (h : Sys.Run (Sys.new sv clock) tr s) {c : Nat} {k : ConnG}
    (hk : s.conns[c]? = some k) {l1 l2 : List REv} {d : Bytes} (e : actsOf c tr = l1 ++ ⟨.write d, false⟩ :: l2) :
    l2 = [] ∨ ∃ p, l2 = [⟨.isConnected, p⟩] ∨ ∃ l4, l2 = ⟨.isConnected, p⟩ :: ⟨.reqEnd, ()⟩ :: l4 := by
  obtain ⟨q, _, h2 | ⟨p, l3, rfl, ⟨rfl, _⟩ | ⟨l4, rfl, _⟩⟩⟩ := conn_failed h hk e
  · exact .inl h2
  · exact .inr ⟨p, .inl rfl⟩
  · exact .inr ⟨p, .inr ⟨l4, rfl⟩⟩

/-- **C66**, for a client whose absence the probe notices: the connection goes on with its loop, from what it had received before, and a panic right
after is not due to the failed write (but to a request with an impossible size). -/
theorem C66_dropped_partial {sv : Server} {clock : Int} {tr : List SEv} {s : Sys} (h : Sys.Run (Sys.new sv clock) tr s) {c : Nat} {k : ConnG}
    (hk : s.conns[c]? = some k) {l1 l4 : List REv} {d : Bytes} {p : Probe} (hp : dropped p)
    (e : actsOf c tr = l1 ++ ⟨.write d, false⟩ :: ⟨.isConnected, p⟩ :: ⟨.reqEnd, ()⟩ :: l4) :
    ∃ rest q, Own (.loop rest (handleBody sv) .ret) l4 q ∧ (k.pc = .body q ∨ ((∀ q, k.pc ≠ .body q) ∧ q = .ret ())) ∧
      (l4 = [] → s.next (.conn c) = .crash .handler → 2 ^ 32 - 4 ≤ Spec.be (rest.take 4)) := by
  obtain ⟨q, h1, h2 | ⟨p', l3, e1, ⟨e2, _⟩ | ⟨l4', e2, h2⟩⟩⟩ := conn_failed h hk e
  · cases h2
  · rw [e2] at e1; cases e1
  · rw [e2] at e1; cases e1
    rw [if_neg (by cases p <;> first | decide | exact hp.elim)] at h2
    obtain ⟨rest, h2⟩ := h2
    refine ⟨rest, q, h2, h1, ?_⟩
    rintro rfl hc
    have hq : q = .panic := by
      simp only [Sys.next, Sys.connStep, hk] at hc
      rcases h1 with h1 | ⟨h1, _⟩
      · rw [h1] at hc
        cases q with
        | ret v => cases hc
        | panic => rfl
        | act => cases hc
        | loop => cases hc
      · cases hpc : k.pc with
        | body q => exact absurd hpc (h1 q)
        | ended => rw [hpc] at hc; cases hc
        | oc o =>
          rw [hpc] at hc
          cases o <;> simp only [Sys.lockMu, Sys.activeDone, Sys.wgDone] at hc <;> (repeat' split at hc) <;>
            simp_all
    subst hq
    exact getMessage_panic (loop_panics h2)

/-- **C66**: if the probe finds the connection open and idle, or fails itself, the mock crashes. -/
theorem C66_connected {sv : Server} {clock : Int} {tr : List SEv} {s : Sys} (h : Sys.Run (Sys.new sv clock) tr s) {c : Nat} {k : ConnG}
    (hk : s.conns[c]? = some k) {l1 l4 : List REv} {d : Bytes} {p : Probe} (hp : ¬ dropped p)
    (e : actsOf c tr = l1 ++ ⟨.write d, false⟩ :: ⟨.isConnected, p⟩ :: ⟨.reqEnd, ()⟩ :: l4) : l4 = [] ∧ s.next (.conn c) = .crash .handler := by
  obtain ⟨q, h1, h2 | ⟨p', l3, e1, ⟨e2, _⟩ | ⟨l4', e2, h2⟩⟩⟩ := conn_failed h hk e
  · cases h2
  · rw [e2] at e1; cases e1
  · rw [e2] at e1; cases e1
    rw [if_pos (by cases p <;> first | rfl | exact absurd trivial hp)] at h2
    obtain ⟨h2, rfl⟩ := h2
    rcases h1 with h1 | ⟨_, h1⟩
    · exact ⟨h2, by simp only [Sys.next, Sys.connStep, hk, h1]⟩
    · cases h1

/-! ### Example -/

/-- A client has asked for the versions and is gone when the mock answers: the write of the correlation id fails, and the probe has result `p`. -/
def goneAt (p : Probe) : List Pick :=
  starts 0 ++ opens 0 ++ accepts 0 ++ asks 0 .apiVersions 7 ++ List.replicate 3 (.conn 0) ++ [.lost 0, .probe 0 p, .conn 0]

/-- The last three actions are a failed write, the probe with the given result, and the end of the request. -/
def lostEnd : List REv → Option Probe
  | [⟨.write _, false⟩, ⟨.isConnected, p⟩, ⟨.reqEnd, _⟩] => some p
  | _ :: l => lostEnd l
  | [] => none

theorem lostEnd_eq {l : List REv} {p : Probe} (h : lostEnd l = some p) :
    ∃ l1 d, l = l1 ++ [⟨.write d, false⟩, ⟨.isConnected, p⟩, ⟨.reqEnd, ()⟩] := by
  induction l with
  | nil => cases h
  | cons x l ih =>
    unfold lostEnd at h
    split at h
    · next d p' _ e => cases h; cases e; exact ⟨[], d, rfl⟩
    · next _ _ e =>
      cases e
      obtain ⟨l1, d, e⟩ := ih h
      exact ⟨x :: l1, d, by rw [e]; rfl⟩
    · cases h

theorem goneAt_ends (p : Probe) : ∃ k l1 d, (stateAfter (goneAt p) (Sys.new ⟨9092, []⟩ 0)).conns[0]? = some k ∧
    actsOf 0 (eventsOf (goneAt p) (Sys.new ⟨9092, []⟩ 0)) = l1 ++ ⟨.write d, false⟩ :: ⟨.isConnected, p⟩ :: ⟨.reqEnd, ()⟩ :: [] := by
  have h : (stateAfter (goneAt p) (Sys.new ⟨9092, []⟩ 0)).conns.length = 1 ∧ lostEnd (actsOf 0 (eventsOf (goneAt p) (Sys.new ⟨9092, []⟩ 0))) = some p := by
    cases p <;> decide +kernel
  obtain ⟨l1, d, e⟩ := lostEnd_eq h.2
  exact ⟨_, l1, d, List.getElem?_eq_getElem (by rw [h.1]; decide), e⟩

/-- The case of `C66_dropped_partial`: the probe finds that the client has closed its side; the goroutine is back in its loop. -/
example : ∃ tr s, Sys.Run (Sys.new ⟨9092, []⟩ 0) tr s ∧ dropped .eof ∧ (∃ k l1 d, s.conns[0]? = some k ∧
    actsOf 0 tr = l1 ++ ⟨.write d, false⟩ :: ⟨.isConnected, .eof⟩ :: ⟨.reqEnd, ()⟩ :: []) ∧ (s.next (.conn 0) matches .blocked) :=
  ⟨_, _, stateAfter_run (goneAt .eof) _, trivial, goneAt_ends .eof, by decide +kernel⟩

/-- **C66** is false: a client that has reset its connection, as the probe finds out (`ECONNRESET`), brings the mock down. -/
theorem C66_false : ∃ tr s, Sys.Run (Sys.new ⟨9092, []⟩ 0) tr s ∧ (∃ k l1 d, s.conns[0]? = some k ∧
    actsOf 0 tr = l1 ++ ⟨.write d, false⟩ :: ⟨.isConnected, .error⟩ :: ⟨.reqEnd, ()⟩ :: []) ∧ s.next (.conn 0) = .crash .handler := by
  obtain ⟨k, l1, d, h1, h2⟩ := goneAt_ends .error
  exact ⟨_, _, stateAfter_run (goneAt .error) _, ⟨k, l1, d, h1, h2⟩, (C66_connected (stateAfter_run (goneAt .error) _) h1 id h2).2⟩

end KM.Props
