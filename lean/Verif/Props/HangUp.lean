import Verif.Props.Closing
import Verif.Props.Answered
/-
C104: the mock hangs up on a client only when it has been told to finish, and then only when everything that it has read from the client has been answered.
-/
namespace KM.Props
open KM KM.Spec

/-! ### A goroutine of the mock does not cancel contexts -/

theorem dispatcher_noCancel (sv : Server) (r : Reader) (n : Nat) : (dispatcher sv r n).Only NoCancel := by
  have hf : sendFailed.Only NoCancel := ⟨nofun, fun _ => trivial⟩
  unfold dispatcher
  split
  · trivial
  · trivial
  · dsimp only
    split
    · trivial
    · trivial
    · split
      · trivial
      · refine ((handler_socket sv _ _).mono fun a h e => by rw [e] at h; cases h).bind fun h => ?_
        unfold finish
        split
        · trivial
        · split
          · trivial
          · split
            · trivial
            · refine ⟨nofun, fun ok1 => ?_⟩
              cases ok1
              · exact hf
              · refine ⟨nofun, fun ok2 => ?_⟩
                cases ok2
                · exact hf
                · refine ⟨nofun, fun ok3 => ?_⟩
                  cases ok3
                  · exact hf
                  · trivial

theorem handle_noCancel (sv : Server) : (handle sv).Only NoCancel := by
  refine ⟨fun inbound => ?_, fun _ => trivial⟩
  unfold handleBody
  split
  · trivial
  · refine ⟨nofun, fun d => ?_⟩
    dsimp only
    split
    · exact ⟨nofun, fun _ => trivial⟩
    · refine ⟨nofun, ?_⟩
      rintro (b | _ | _ | _)
      · exact ⟨nofun, fun _ => trivial⟩
      · trivial
      · trivial
      · trivial
  · refine ⟨nofun, fun _ => (dispatcher_noCancel sv _ _).bind fun res => ⟨nofun, fun _ => ?_⟩⟩
    cases res <;> trivial

/-! ### Who cancels a context -/

/-- Step `e` of the mock, taken in state `s`, tells the connections of start `g` to finish: the parent context is cancelled; or somebody who has called FinishRequests,
RequestStop, Restart or WaitForTermination cancels the context of the last start, which is start `g`. -/
def Tells (g : Nat) (s : Sys) (e : SEv) : Prop :=
  e = .life .parentCancel ∨ ∃ i cl, e = .life (.api i cl) ∧ Cancelling s i ∧ s.ctx = some g

theorem apiStep_tells {s s' : Sys} {i : Nat} {c : Call} (hn : s.apiStep i c = .ok s') {g : Nat} (h0 : s.isDone g = false) (h1 : s'.isDone g = true) :
    Cancelling s i ∧ s.ctx = some g := by
  have same : s'.done = s.done → s'.parentDone = s.parentDone → False := fun a b => by
    unfold Sys.isDone at h0 h1
    rw [a, b, h0] at h1
    cases h1
  have put : ∀ {x : Nat}, s'.done = x :: s.done → s'.parentDone = s.parentDone → x = g := fun {x} a b => by
    unfold Sys.isDone at h0 h1
    rw [a, b, List.contains_cons] at h1
    rw [Bool.or_eq_false_iff] at h0
    rw [h0.1, h0.2, Bool.false_or, Bool.or_false] at h1
    exact (eq_of_beq h1).symm
  unfold Sys.apiStep at hn
  split at hn
  · cases hn; exact (same rfl rfl).elim
  · cases hn; exact (same rfl rfl).elim
  · next k r hk =>
    clear hk
    cases k <;> simp only [Sys.startStep, Sys.lockMu] at hn <;> (try split at hn) <;> cases hn <;> exact (same rfl rfl).elim
  · next k b hk =>
    cases k
    case init k => cases k <;> simp only [Sys.stopStep, Sys.waitStep, reduceCtorEq, Out.ok.injEq] at hn <;> subst hn <;> exact (same rfl rfl).elim
    case cancel =>
      simp only [Sys.stopStep] at hn
      split at hn <;> cases hn
      · next x hx => exact ⟨.inr ⟨b, hk⟩, by rw [hx, put rfl rfl]⟩
      · exact (same rfl rfl).elim
    all_goals
      simp only [Sys.stopStep, Sys.lockMu] at hn
      (try split at hn) <;> cases hn <;> exact (same rfl rfl).elim
  · next k r hk => clear hk; cases k <;> simp only [Sys.waitStep, reduceCtorEq, Out.ok.injEq] at hn <;> subst hn <;> exact (same rfl rfl).elim
  · next k hk => clear hk; cases k <;> simp only [Sys.waitStep, reduceCtorEq, Out.ok.injEq] at hn <;> subst hn <;> exact (same rfl rfl).elim
  · next hk =>
    split at hn <;> cases hn
    · next x hx => exact ⟨.inl hk, by rw [hx, put rfl rfl]⟩
    · exact (same rfl rfl).elim
  · cases hn; exact (same rfl rfl).elim
  · cases hn
  · cases hn

/-- A step after which a context is cancelled that was not cancelled before. -/
theorem step_tells {s s' : Sys} {e : SEv} (h : Sys.Step s e s') {g : Nat} (hn : ∀ c r, e ≠ .conn c .cancel r) (h0 : s.isDone g = false) (h1 : s'.isDone g = true) :
    Tells g s e := by
  cases h with
  | @life _ c hx =>
    cases c with
    | parentCancel => exact .inl rfl
    | api i c => exact .inr ⟨i, c, rfl, apiStep_tells hx h0 h1⟩
    | run j ok =>
      have f := runStep_frame hx
      unfold Sys.isDone at h0 h1
      rw [f.parentDone, f.done, h0] at h1
      cases h1
    | conn c =>
      have f := connStep_frame hx
      unfold Sys.isDone at h0 h1
      rw [f.parentDone, f.done, h0] at h1
      cases h1
  | @conn c k a f r w hc hp ha =>
    have hw : w.cancelled = s.isDone k.ctx := by
      by_cases hd : a = .isDone
      · subst hd; obtain ⟨rfl, _⟩ := ha; rfl
      · exact (step_flag ha hd (fun hx => by subst hx; exact hn c r rfl) false).2
    have : (s.setView k.ctx w).isDone g = true := h1
    rw [isDone_setView hw, h0] at this
    cases this
  | unroll => have : s.isDone g = true := h1; rw [h0] at this; cases this
  | call => have : s.isDone g = true := h1; rw [h0] at this; cases this
  | tick => have : s.isDone g = true := h1; rw [h0] at this; cases this

/-- What tells connections to finish cancels their context. -/
theorem tells_done {s s' : Sys} {e : SEv} (h : Sys.Step s e s') {g : Nat} (ht : Tells g s e) : s'.isDone g = true := by
  rcases ht with rfl | ⟨i, cl, rfl, hc, hg⟩
  · cases h with | life hn => cases hn; rfl
  · cases h with | life hn => exact (cancelling_done hc hn hg).1

/-- A cancelled context has been cancelled by somebody. -/
theorem run_tells {s s' : Sys} {tr : List SEv} (h : Sys.Run s tr s') {g : Nat} (hn : ∀ e ∈ tr, ∀ c r, e ≠ .conn c .cancel r) (h0 : s.isDone g = false)
    (h1 : s'.isDone g = true) : ∃ ta e tb sa sb, tr = ta ++ e :: tb ∧ Sys.Run s ta sa ∧ Sys.Step sa e sb ∧ Sys.Run sb tb s' ∧ Tells g sa e := by
  induction h with
  | nil => rw [h0] at h1; cases h1
  | @cons s s1 s2 e es h hs ih =>
    cases hd : s1.isDone g with
    | true => exact ⟨[], e, es, s, s1, rfl, .nil s, h, hs, step_tells h (hn e List.mem_cons_self) h0 hd⟩
    | false =>
      obtain ⟨ta, e', tb, sa, sb, h2, h3, h4⟩ := ih (fun e he => hn e (List.mem_cons_of_mem _ he)) hd h1
      exact ⟨e :: ta, e', tb, sa, sb, by rw [h2]; rfl, .cons h h3, h4⟩

/-- No goroutine of the mock cancels a context from within a request. -/
theorem run_noCancel {sv : Server} {clock : Int} {tr : List SEv} {s : Sys} (h : Sys.Run (Sys.new sv clock) tr s) : ∀ e ∈ tr, ∀ c r, e ≠ .conn c .cancel r := by
  rintro e he c r rfl
  obtain ⟨ta, tb, rfl⟩ := List.append_of_mem he
  obtain ⟨s1, h1, h2⟩ := run_split (ta := ta ++ [.conn c .cancel r]) (tb := tb) (by simpa using h)
  obtain ⟨s0, h3, h4⟩ := run_split h1
  cases h4 with
  | cons hst _ =>
    obtain ⟨k, f, a1, a2, a3⟩ := step_conn_acts hst
    obtain ⟨w, w', es, p, x1, x2, x3⟩ := h3.connection a1
    rcases x3 with x3 | ⟨x3, _⟩
    · rw [a2] at x3
      cases x3
      exact (x1.only (handle_noCancel sv)).1.1 rfl
    · exact absurd a2 (x3 _)

/-- A connection that is closed has just been found cancelled. -/
theorem close_after_done {sv : Server} {inb : Bytes} {l : List REv} {q : Prog Unit} (h : Conv sv inb l q) {l1 l2 : List REv}
    (hl : l = l1 ++ ⟨.close, ()⟩ :: l2) : ∃ l0, l1 = l0 ++ [⟨.isDone, true⟩] := by
  have inner : ∀ {m : Bytes} {l : List REv} {x : Prog DRes}, Own (dispatcher sv ⟨m⟩ m.length) l x → (⟨.close, ()⟩ : REv) ∉ l := fun hd hm =>
    (hd.only (dispatcher_onlyInner sv _ _)).2 _ hm
  have more : ∀ {l1 l : List REv} (x : List REv), (∀ {l1}, l = l1 ++ ⟨.close, ()⟩ :: l2 → ∃ l0, l1 = l0 ++ [⟨.isDone, true⟩]) → (⟨.close, ()⟩ : REv) ∉ x →
      x ++ l = l1 ++ ⟨.close, ()⟩ :: l2 → ∃ l0, l1 = l0 ++ [⟨.isDone, true⟩] := by
    intro l1 l x ih hx e
    obtain ⟨l1', rfl, e'⟩ := split_after e.symm.symm hx
    obtain ⟨l0, rfl⟩ := ih e'
    exact ⟨x ++ l0, by simp⟩
  induction h generalizing l1 with
  | head => cases l1 <;> cases hl
  | part hn h _ =>
    rcases h with rfl | ⟨d, rfl⟩ | rfl | ⟨r, rfl⟩
    · cases l1 <;> cases hl
    · rcases l1 with _ | ⟨_, _ | _⟩ <;> cases hl
    · rcases l1 with _ | ⟨_, _ | ⟨_, _ | _⟩⟩ <;> cases hl
      exact ⟨[], rfl⟩
    · rcases l1 with _ | ⟨_, _ | ⟨_, _ | _⟩⟩ <;> cases hl
  | timeout hn h ih => exact more [_, _] ih (by simp) hl
  | ignored hn h ih => exact more [_, _, _] ih (by simp) hl
  | read hn h ih => exact more [_, _, _] ih (by simp) hl
  | huge => cases l1 <;> cases hl
  | begin => cases l1 <;> cases hl
  | @serving inb m l x q hm hd hq =>
    have : (⟨.close, ()⟩ : REv) ∈ (⟨.reqBegin m, ()⟩ : REv) :: l := by rw [hl]; simp
    rcases List.mem_cons.1 this with h | h
    · cases h
    · exact absurd h (inner hd)
  | @rejected inb m l hm hd =>
    have : (⟨.close, ()⟩ : REv) ∈ (⟨.reqBegin m, ()⟩ : REv) :: (l ++ [⟨.reqEnd, ()⟩]) := by rw [hl]; simp
    rcases List.mem_cons.1 this with h | h
    · cases h
    · rcases List.mem_append.1 h with h | h
      · exact absurd h (inner hd)
      · simp at h
  | @served inb m l l2 q hm hd h ih =>
    refine more (⟨.reqBegin m, ()⟩ :: (l ++ [⟨.reqEnd, ()⟩])) ih ?_ (by simpa using hl)
    intro hx
    rcases List.mem_cons.1 hx with h | h
    · cases h
    · rcases List.mem_append.1 h with h | h
      · exact absurd h (inner hd)
      · simp at h

/-! ### C104 -/

/-- **C104**, only when told: if a connection of start `k.gen` has been closed by the mock, then before that the context of that start or the parent context was cancelled: by the
owner of the parent context, or by a call of FinishRequests, RequestStop, Restart or WaitForTermination while that start was the last one. A start after that one, other clients and
whatever the client itself sends do not make the mock hang up. -/
theorem C104_told {sv : Server} {clock : Int} {tr : List SEv} {s : Sys} (h : Sys.Run (Sys.new sv clock) tr s) {c : Nat} {k : ConnG}
    (hk : s.conns[c]? = some k) (hc : (⟨.close, ()⟩ : REv) ∈ actsOf c tr) :
    ∃ ta e tb sa sb, tr = ta ++ e :: tb ∧ Sys.Run (Sys.new sv clock) ta sa ∧ Sys.Step sa e sb ∧ Sys.Run sb tb s ∧ Tells k.gen sa e ∧ (⟨.close, ()⟩ : REv) ∈ actsOf c tb := by
  obtain ⟨t0, t1, rfl⟩ := List.append_of_mem (mem_actsOf hc)
  obtain ⟨sx, h1, h2⟩ := run_split h
  obtain ⟨sy, h3⟩ : ∃ sy, Sys.Step sx (.conn c .close ()) sy := by cases h2 with | cons a _ => exact ⟨_, a⟩
  obtain ⟨kx, f, a1, a2, a3⟩ := step_conn_acts h3
  obtain ⟨w, w', es, p, x1, x2, _⟩ := (h1.append (.cons h3 (.nil _))).connection a3
  have hcv := handle_conv x1.own
  rw [x2, actsOf_append, actsOf_one] at hcv
  obtain ⟨l0, hl0⟩ := close_after_done hcv rfl
  obtain ⟨u0, u1, rfl⟩ := List.append_of_mem (mem_actsOf (c := c) (tr := t0) (a := .isDone) (r := true) (by rw [hl0]; simp))
  obtain ⟨su, h4, h5⟩ := run_split h1
  cases h5 with
  | @cons _ sv' _ _ _ hst hrest =>
  cases hst with
  | @conn _ ku _ fu _ wu hcu hpu ha =>
    have hd : su.isDone ku.ctx = true := ha.2.symm
    obtain ⟨k', b1, b2, _⟩ := ((Sys.Run.cons (Sys.Step.conn hcu hpu ha) hrest).append h2).project hcu hpu
    rw [hk] at b1
    cases b1
    rw [h4.whole.2.2.conn c ku hcu, ← b2] at hd
    obtain ⟨ta, e, tb, sa, sb, rfl, c1, c2, c3, c4⟩ := run_tells h4 (run_noCancel h4) (by simp [Sys.isDone, Sys.new]) hd
    refine ⟨ta, e, tb ++ .conn c .isDone true :: u1 ++ .conn c .close () :: t1, sa, sb, by simp, c1, c2,
      (c3.append (.cons (Sys.Step.conn hcu hpu ha) hrest)).append h2, c4, ?_⟩
    rw [actsOf_append, actsOf_cons c (.conn c .close ()) t1, actsOf_one]
    simp

/-- **C104**, and only then: when the mock closes a connection, it has processed every complete request that it has read from it, and sent exactly one response for each, in order,
each with the correlation id of its request (unless a write has failed). -/
theorem C104_answered {sv : Server} {clock : Int} {tr : List SEv} {s : Sys} (h : Sys.Run (Sys.new sv clock) tr s) {c : Nat} {k : ConnG}
    (hk : s.conns[c]? = some k) {l1 l2 : List REv} (hc : actsOf c tr = l1 ++ ⟨.close, ()⟩ :: l2) :
    served l1 = frames (received l1) ∧ ended l1 = (served l1).length ∧ (AllSent l1 → Small l1 →
      ∃ rs, Framed (sent l1) rs ∧ List.Forall₂ (fun m r => requestCorrelation m = responseCorrelation r) (frames (received l1)) rs) := by
  obtain ⟨w, w', es, p, x1, x2, _⟩ := h.connection hk
  have hcv := handle_conv x1.own
  rw [x2] at hcv
  obtain ⟨r1, r2, r3⟩ := idle_of hcv (.inr rfl) hc rfl
  exact ⟨r1, r2, fun a b => r1 ▸ r3 a b⟩

/-- **C104**, until then: as long as nobody has told the connections of its start to finish, a connection is served, unless the client has closed it. -/
theorem C104_served {sv : Server} {clock : Int} {tr : List SEv} {s : Sys} (h : Sys.Run (Sys.new sv clock) tr s) {c : Nat} {k : ConnG}
    (hk : s.conns[c]? = some k) (hn : ∀ ta e tb sa sb, tr = ta ++ e :: tb → Sys.Run (Sys.new sv clock) ta sa → Sys.Step sa e sb → Sys.Run sb tb s → ¬ Tells k.gen sa e)
    (hr : (⟨.recv, .closed⟩ : REv) ∉ actsOf c tr) : ∃ p, k.pc = .body p := by
  refine Classical.byContradiction fun hb => ?_
  obtain ⟨ta, e, tb, sa, sb, h1, h2, h3, h4, h5, _⟩ := C104_told h hk (C80_closed_partial h hk (fun p e => hb ⟨p, e⟩) hr)
  exact hn ta e tb sa sb h1 h2 h3 h4 h5

/-! ### Examples -/

/-- A client sends a Heartbeat request and half of another one. -/
def halfSecond : List Pick := starts 0 ++ opens 0 ++ accepts 0 ++
  [.conn 0, .conn 0, .recv 0 (.data (heartbeatBytes ++ heartbeatBytes.take 9)), .conn 0] ++ List.replicate 7 (.conn 0)

/-- FinishRequests is called, and the connection winds up. -/
def thenFinish : List Pick := caller 0 .finishRequests 2 ++ List.replicate 3 (.conn 0)

set_option maxRecDepth 100000 in
/-- The hypotheses of `C104_told` and `C104_answered`: the Heartbeat request has been answered, the half request is dropped, and the connection is closed. -/
theorem C104_example : ∃ tr s k l1, Sys.Run (Sys.new ⟨9092, []⟩ 0) tr s ∧ s.conns[0]? = some k ∧ actsOf 0 tr = l1 ++ [⟨.close, ()⟩] ∧ AllSent l1 ∧
    received l1 = heartbeatBytes ++ heartbeatBytes.take 9 ∧ served l1 = [heartbeatBytes.drop 4] ∧ sent l1 = [0, 0, 0, 6, 0, 0, 0, 7, 0, 0] := by
  refine ⟨_, _, _, (actsOf 0 (eventsOf (halfSecond ++ thenFinish) (Sys.new ⟨9092, []⟩ 0))).dropLast, stateAfter_run (halfSecond ++ thenFinish) _, rfl, rfl, ?_, rfl, rfl, rfl⟩
  intro b hb
  have : ((actsOf 0 (eventsOf (halfSecond ++ thenFinish) (Sys.new ⟨9092, []⟩ 0))).dropLast).all (fun e => match e with | ⟨.write _, r⟩ => r | _ => true) = true := by decide +kernel
  have := List.all_eq_true.1 this _ hb
  cases this

set_option maxRecDepth 100000 in
/-- The hypotheses of `C104_served`: before FinishRequests is called. -/
example : ∃ tr s k, Sys.Run (Sys.new ⟨9092, []⟩ 0) tr s ∧ s.conns[0]? = some k ∧ served (actsOf 0 tr) = [heartbeatBytes.drop 4] ∧
    (∀ ta e tb sa sb, tr = ta ++ e :: tb → Sys.Run (Sys.new ⟨9092, []⟩ 0) ta sa → Sys.Step sa e sb → Sys.Run sb tb s → ¬ Tells k.gen sa e) ∧ (⟨.recv, .closed⟩ : REv) ∉ actsOf 0 tr := by
  have hd : (stateAfter halfSecond (Sys.new ⟨9092, []⟩ 0)).isDone 0 = false := by decide +kernel
  refine ⟨_, _, _, stateAfter_run halfSecond _, rfl, rfl, fun ta e tb sa sb htr hra hst hrb ht => ?_, fun hm => ?_⟩
  · have : sb.isDone 0 = true := tells_done hst ht
    rw [run_done hrb this] at hd
    cases hd
  · have : (actsOf 0 (eventsOf halfSecond (Sys.new ⟨9092, []⟩ 0))).all (fun e => match e with | ⟨.recv, .closed⟩ => false | _ => true) = true := by decide +kernel
    have := List.all_eq_true.1 this _ hm
    cases this

end KM.Props
