import Verif.LifeSim
import Verif.LifeShape
/-
Properties C46-C48, C50, C51: starting, stopping and the bookkeeping of goroutines, for every schedule of any number of callers,
accept loops and connections.
-/
namespace KM.Props
open KM

/-! ### C48: wait-group counters -/

/-- The accept loops whose goroutine has not yet signed off. -/
def liveLoops (s : Sys) : Nat := s.runs.countP (·.pc != .ended)

/-- The connections whose goroutine has not yet signed off from `km.wg`. -/
def liveConns (s : Sys) : Nat := s.conns.countP (·.pc.inWg)

theorem countP_ended_of_free {s : Sys} (h : s.Inv) (hm : s.mu = none) :
    s.runs.countP (·.pc.inWg) = liveLoops s ∧ s.runs.countP (·.pc == .addActive) = 0 := by
  have hl : ∀ r ∈ s.runs, r.pc.locked = false := by
    intro r hr
    obtain ⟨g, hg⟩ := List.mem_iff_getElem?.1 hr
    cases hb : r.pc.locked with
    | false => rfl
    | true =>
      have := (h.mu (.run g)).1 (by simp [Sys.holds, hg, hb])
      rw [hm] at this; cases this
  constructor
  · refine List.countP_congr fun r hr => ?_
    have := hl r hr
    cases hp : r.pc <;> rw [hp] at this <;> first | decide | cases this
  · refine List.countP_eq_zero.2 fun r hr => ?_
    have := hl r hr
    cases hp : r.pc <;> rw [hp] at this <;> first | decide | cases this

/-- **C48**: no schedule makes a wait-group counter negative. -/
theorem C48_never_negative {s : Sys} (h : s.Reachable) (c : Sys.Choice) : s.next c ≠ .crash .negative := by
  have hi := h.inv
  intro hn
  cases c with
  | api i c =>
    simp only [Sys.next, Sys.apiStep] at hn
    split at hn
    · cases hn
    · cases hn
    · next k r _ =>
      cases k <;> simp only [Sys.startStep, Sys.lockMu] at hn <;> (try split at hn) <;> cases hn
    · next k b hk =>
      clear hk
      cases k
      case init k => cases k <;> simp only [Sys.stopStep, Sys.waitStep, reduceCtorEq] at hn
      all_goals
        simp only [Sys.stopStep, Sys.lockMu] at hn
        (try split at hn) <;> cases hn
    · next k r _ => cases k <;> cases hn
    · next k _ => cases k <;> cases hn
    · split at hn <;> cases hn
    · cases hn
    · cases hn
    · cases hn
  | run g ok =>
    simp only [Sys.next, Sys.runStep] at hn
    split at hn
    · cases hn
    next r hr =>
    have hmem := List.mem_of_getElem? hr
    split at hn
    · split at hn <;> cases hn
    · cases hn
    · next hp =>
      have hpos : 0 < s.init := by
        rw [hi.init]
        have : 0 < s.runs.countP (·.pc.initializing) := List.countP_pos_iff.2 ⟨r, hmem, by rw [hp]; rfl⟩
        omega
      split at hn
      · cases hn
      · unfold Sys.initDone at hn
        split at hn
        · omega
        · cases hn
        · cases hn
    · split at hn
      · cases hn
      · split at hn <;> cases hn
    · cases hn
    · unfold Sys.lockMu at hn; split at hn <;> cases hn
    · cases hn
    · cases hn
    · cases hn
    · cases hn
    · split at hn <;> cases hn
    · cases hn
    · next hp =>
      have hpos : 0 < s.wg := by
        rw [hi.wg]
        have : 0 < s.runs.countP (·.pc.inWg) := List.countP_pos_iff.2 ⟨r, hmem, by rw [hp]; rfl⟩
        omega
      split at hn
      · cases hn
      · unfold Sys.wgDone at hn
        split at hn
        · omega
        · cases hn
        · cases hn
    · cases hn
  | conn c =>
    simp only [Sys.next, Sys.connStep] at hn
    split at hn
    · cases hn
    next k hk =>
    have hmem := List.mem_of_getElem? hk
    split at hn
    · cases hn
    · cases hn
    · cases hn
    · unfold Sys.lockMu at hn; split at hn <;> cases hn
    · split at hn <;> cases hn
    · next hp =>
      have hmu := (hi.mu (.conn c)).1 (by simp [Sys.holds, hk, hp, ConnPc.locked])
      have hz : s.runs.countP (·.pc == .addActive) = 0 := by
        refine List.countP_eq_zero.2 fun r hr hra => ?_
        obtain ⟨g, hg⟩ := List.mem_iff_getElem?.1 hr
        have := (hi.mu (.run g)).1 (by simp only [Sys.holds, hg, Option.any_some, LawfulBEq.eq_of_beq hra]; rfl)
        rw [hmu] at this; cases this
      have hpos : 0 < s.active := by
        have e := hi.active
        have : 0 < s.conns.countP (·.pc.inActive) := List.countP_pos_iff.2 ⟨k, hmem, by rw [hp]; rfl⟩
        omega
      split at hn
      · cases hn
      · unfold Sys.activeDone at hn
        split at hn
        · omega
        · cases hn
    · next hp =>
      have hpos : 0 < s.wg := by
        rw [hi.wg]
        have : 0 < s.conns.countP (·.pc.inWg) := List.countP_pos_iff.2 ⟨k, hmem, by rw [hp]; rfl⟩
        omega
      split at hn
      · cases hn
      · unfold Sys.wgDone at hn
        split at hn
        · omega
        · cases hn
        · cases hn
    · cases hn
    · cases hn
  | parentCancel => cases hn

/-- **C48**: whenever nobody is inside a critical section, `km.wg` counts the accept loops and connections that have not signed off,
`km.active` the connections, and `km.initializing` the accept loops that are not listening yet. -/
theorem C48_counters {s : Sys} (h : s.Reachable) (hm : s.mu = none) :
    s.wg = liveLoops s + liveConns s ∧ s.active = liveConns s ∧ s.init = s.runs.countP (·.pc.initializing) := by
  have hi := h.inv
  obtain ⟨e1, e2⟩ := countP_ended_of_free hi hm
  have e3 : s.conns.countP (·.pc.inActive) = liveConns s := by
    refine List.countP_congr fun k hk => ?_
    obtain ⟨c, hc⟩ := List.mem_iff_getElem?.1 hk
    cases hp : k.pc with
    | oc p =>
      cases p with
      | lock => decide
      | _ =>
        have := (hi.mu (.conn c)).1 (by simp [Sys.holds, hc, hp, ConnPc.locked])
        rw [hm] at this; cases this
    | _ => simp [ConnPc.inActive, ConnPc.inWg]
  have ho : ∀ f, s.ofHolder f = 0 := fun f => by unfold Sys.ofHolder; rw [hm]
  refine ⟨?_, ?_, ?_⟩
  · rw [hi.wg, ho, e1, Nat.zero_add]; rfl
  · have := hi.active
    rw [e2, Nat.add_zero, e3] at this
    exact this
  · rw [hi.init, ho, Nat.zero_add]

/-! ### C47: termination -/

/-- With `km.wg` at zero, every accept loop has ended and every connection handler has signed off. -/
theorem wg_zero {s : Sys} (hi : s.Inv) (hw : s.wg = 0) :
    (∀ r ∈ s.runs, r.pc = .ended) ∧ (∀ k ∈ s.conns, k.pc.inWg = false) := by
  have e := hi.wg
  rw [hw] at e
  have hc : ∀ k ∈ s.conns, k.pc.inWg = false := by
    have : s.conns.countP (·.pc.inWg) = 0 := by omega
    intro k hk
    simpa using List.countP_eq_zero.1 this k hk
  refine ⟨fun r hr => ?_, hc⟩
  have h0 : s.runs.countP (·.pc.inWg) = 0 := by omega
  have h1 : r.pc.inWg = false := by simpa using List.countP_eq_zero.1 h0 r hr
  obtain ⟨g, hg⟩ := List.mem_iff_getElem?.1 hr
  have key : ¬ (r.pc = .addActive ∨ r.pc = .addWg) := by
    intro hp
    obtain ⟨c, k, e1, e2, _⟩ := hi.fresh g r hg hp
    have := hc k (List.mem_of_getElem? e1)
    unfold ConnPc.early at e2
    split at e2
    · next h => rw [h] at this; cases this
    · next h => rw [h] at this; cases this
    · cases e2
  cases hp : r.pc <;> rw [hp] at h1 key <;> first | rfl | (simp at key; done) | cases h1

/-- Caller `i` is in `WaitForTermination` (also as part of `Restart`) and this step takes it past `km.wg.Wait()`. -/
def WaitReturns (s : Sys) (i : Nat) (s' : Sys) : Prop :=
  ∃ k r c b, s.api i = .wait k r ∧ s.next (.api i c) = .ok s' ∧ s'.api i = .stop .swap b

theorem waitReturns_zero {s s' : Sys} {i : Nat} (h : WaitReturns s i s') : s.wg = 0 ∧ s'.runs = s.runs ∧ s'.conns = s.conns ∧ s'.started = s.started := by
  obtain ⟨k, r, c, b, hk, hn, hb⟩ := h
  simp only [Sys.next, Sys.apiStep, hk] at hn
  cases k with
  | enter =>
    simp only [Sys.waitStep] at hn
    cases hn
    by_cases e : s.wg = 0
    · exact ⟨e, rfl, rfl, rfl⟩
    · simp [Sys.setApi, e] at hb
  | asleep => cases hn
  | woken =>
    simp only [Sys.waitStep] at hn
    cases hn
    by_cases e : s.wg = 0
    · exact ⟨e, rfl, rfl, rfl⟩
    · simp [Sys.setApi, e] at hb

/-- A handler has ended: its loop is over and its close callback has run, except perhaps for the callback's last statement, `km.mu.Unlock()`. -/
def SignedOff (k : ConnG) : Prop := k.pc = .oc .unlock ∨ k.pc = .ended

/-- **C47**, termination, up to the last statement of the close callback: when `WaitForTermination` gets past its wait, every accept loop
has ended and every connection handler has ended, except that a handler may still have to release `km.mu`. -/
theorem C47_terminated_partial {s s' : Sys} (h : s.Reachable) {i : Nat} (hw : WaitReturns s i s') :
    (∀ r ∈ s'.runs, r.pc = .ended) ∧ (∀ k ∈ s'.conns, SignedOff k) := by
  obtain ⟨h0, e1, e2, _⟩ := waitReturns_zero hw
  rw [e1, e2]
  obtain ⟨a, b⟩ := wg_zero h.inv h0
  refine ⟨a, fun k hk => ?_⟩
  have := b k hk
  unfold ConnPc.inWg at this
  split at this
  · next e => exact .inl e
  · next e => exact .inr e
  · cases this

/-! How the list of accept loops changes. -/

theorem startStep_runs {s s' : Sys} {i : Nat} {r : Bool} {k : StartPc} (hn : s.startStep i r k = .ok s') :
    s'.runs = s.runs ∨ s'.runs = s.runs ++ [⟨.listen, 0⟩] := by
  cases k <;> simp only [Sys.startStep, Sys.lockMu] at hn <;> (try split at hn) <;> cases hn <;> first | exact .inl rfl | exact .inr rfl

theorem stopStep_runs {s s' : Sys} {i : Nat} {b : StopBy} {k : StopPc} (hn : s.stopStep i b k = .ok s') : s'.runs = s.runs := by
  cases k
  case init k => cases k <;> simp only [Sys.stopStep, Sys.waitStep, reduceCtorEq, Out.ok.injEq] at hn <;> subst hn <;> rfl
  all_goals
    simp only [Sys.stopStep, Sys.lockMu] at hn
    (try split at hn) <;> cases hn <;> rfl

theorem waitStep_runs {s s' : Sys} {i n : Nat} {k : WaitPc} {a : WaitPc → ApiPc} {b : ApiPc} (hn : s.waitStep i n k a b = .ok s') : s'.runs = s.runs := by
  cases k <;> simp only [Sys.waitStep, reduceCtorEq, Out.ok.injEq] at hn <;> subst hn <;> rfl

theorem apiStep_runs {s s' : Sys} {i : Nat} {c : Call} (hn : s.apiStep i c = .ok s') : s'.runs = s.runs ∨ s'.runs = s.runs ++ [⟨.listen, 0⟩] := by
  unfold Sys.apiStep at hn
  split at hn
  · cases hn; exact .inl rfl
  · cases hn; exact .inl rfl
  · exact startStep_runs hn
  · exact .inl (stopStep_runs hn)
  · exact .inl (waitStep_runs hn)
  · exact .inl (waitStep_runs hn)
  · split at hn <;> cases hn <;> exact .inl rfl
  · cases hn; exact .inl rfl
  · cases hn
  · cases hn

theorem wgDone_runs {s s' : Sys} (h : s.wgDone = .ok s') : s'.runs = s.runs := by
  unfold Sys.wgDone at h; split at h <;> cases h <;> rfl
theorem initDone_runs {s s' : Sys} (h : s.initDone = .ok s') : s'.runs = s.runs := by
  unfold Sys.initDone at h; split at h <;> cases h <;> rfl
theorem activeDone_runs {s s' : Sys} (h : s.activeDone = .ok s') : s'.runs = s.runs := by
  unfold Sys.activeDone at h; split at h <;> cases h <;> rfl

/-- The order of the lines of `run`. -/
def _root_.KM.RunPc.next : RunPc → List RunPc
  | .listen => [.setListener]
  | .setListener => [.initDone]
  | .initDone => [.accept]
  | .accept => [.select, .waitActive]
  | .select => [.accept, .lock]
  | .lock => [.register]
  | .register => [.addActive]
  | .addActive => [.addWg]
  | .addWg => [.unlock]
  | .unlock => [.accept]
  | .waitActive => [.storeStarted]
  | .storeStarted => [.wgDone]
  | .wgDone => [.ended]
  | .ended => []

/-- An accept loop goes to its next line; `cxnNumber` changes at line 149 only. -/
def RunNext (r r' : RunG) : Prop := r'.pc ∈ r.pc.next ∧ r'.cxn = if r.pc = .register then r.cxn + 1 else r.cxn

theorem runStep_runs {s s' : Sys} {g : Nat} {ok : Bool} (hn : s.runStep g ok = .ok s') :
    ∃ r r', s.runs[g]? = some r ∧ RunNext r r' ∧ s'.runs = s.runs.set g r' := by
  unfold Sys.runStep at hn
  split at hn
  · cases hn
  next r hr =>
  refine ⟨r, ?_⟩
  simp only at hn
  refine (fun ⟨r', h⟩ => ⟨r', hr, h⟩ : (∃ r', RunNext r r' ∧ s'.runs = s.runs.set g r') → _) ?_
  have key : ∀ {pc pc' : RunPc}, r.pc = pc → pc' ∈ pc.next → pc ≠ .register → RunNext r { r with pc := pc' } := by
    intro pc pc' e h1 h2
    exact ⟨by rw [e]; exact h1, by rw [if_neg (by rw [e]; exact h2)]⟩
  cases hp : r.pc <;> simp only [hp] at hn
  case initDone =>
    cases he : s.initDone <;> rw [he] at hn <;> cases hn
    exact ⟨_, key (pc' := .accept) hp (by decide) (by decide), by show List.set _ _ _ = _; rw [initDone_runs he]⟩
  case wgDone =>
    cases he : s.wgDone <;> rw [he] at hn <;> cases hn
    exact ⟨_, key (pc' := .ended) hp (by decide) (by decide), by show List.set _ _ _ = _; rw [wgDone_runs he]⟩
  case lock =>
    unfold Sys.lockMu at hn
    split at hn <;> cases hn
    exact ⟨_, key hp (by decide) (by decide), rfl⟩
  case accept =>
    split at hn
    · cases hn; exact ⟨_, key hp (by decide) (by decide), rfl⟩
    · split at hn <;> cases hn; exact ⟨_, key hp (by decide) (by decide), rfl⟩
  case select =>
    cases hn
    exact ⟨_, key hp (by split <;> decide) (by decide), rfl⟩
  case register =>
    cases hn
    exact ⟨_, ⟨by rw [hp]; exact List.mem_singleton.2 rfl, by rw [hp]; rfl⟩, rfl⟩
  case ended => cases hn
  all_goals first
    | (cases hn; exact ⟨_, key hp (by decide) (by decide), rfl⟩)
    | (split at hn <;> cases hn; exact ⟨_, key hp (by decide) (by decide), rfl⟩)

theorem RunNext.not_ended {r r' : RunG} (h : RunNext r r') : r.pc ≠ .ended := by
  intro e
  have := h.1
  rw [e] at this
  cases this

theorem connStep_runs {s s' : Sys} {c : Nat} (hn : s.connStep c = .ok s') : s'.runs = s.runs := by
  unfold Sys.connStep at hn
  split at hn
  · cases hn
  next k hk =>
  simp only at hn
  split at hn
  · cases hn; rfl
  · cases hn
  · cases hn
  · unfold Sys.lockMu at hn; split at hn <;> cases hn; rfl
  · split at hn <;> cases hn; rfl
  · cases he : s.activeDone <;> rw [he] at hn <;> cases hn
    exact (activeDone_runs he :)
  · cases he : s.wgDone <;> rw [he] at hn <;> cases hn
    exact (wgDone_runs he :)
  · cases hn; rfl
  · cases hn

theorem step_runs {s s' : Sys} {e : SEv} (h : Sys.Step s e s') :
    s'.runs = s.runs ∨ (∃ g r r', s.runs[g]? = some r ∧ RunNext r r' ∧ s'.runs = s.runs.set g r') ∨ s'.runs = s.runs ++ [⟨.listen, 0⟩] := by
  cases h with
  | @life _ c hn =>
    cases c with
    | api i c => rcases apiStep_runs hn with h | h <;> simp [h]
    | run g ok => exact .inr (.inl ⟨g, runStep_runs hn⟩)
    | conn c => exact .inl (connStep_runs hn)
    | parentCancel => cases hn; exact .inl rfl
  | conn => exact .inl rfl
  | unroll => exact .inl rfl
  | call => exact .inl rfl
  | tick => exact .inl rfl

theorem step_runs_length {s s' : Sys} {e : SEv} (h : Sys.Step s e s') : s.runs.length ≤ s'.runs.length := by
  rcases step_runs h with h | ⟨g, r, r', _, _, h⟩ | h <;> rw [h] <;> simp

theorem run_runs_length {s s' : Sys} {tr : List SEv} (h : Sys.Run s tr s') : s.runs.length ≤ s'.runs.length := by
  induction h with
  | nil => exact Nat.le_refl _
  | cons h _ ih => exact Nat.le_trans (step_runs_length h) ih

/-- Ended accept loops stay ended. -/
theorem run_all_ended {s s' : Sys} {tr : List SEv} (h : Sys.Run s tr s') (ha : ∀ r ∈ s.runs, r.pc = .ended) (hl : s'.runs.length = s.runs.length) :
    s'.runs = s.runs := by
  induction h with
  | nil => rfl
  | cons h hs ih =>
    have l1 := step_runs_length h
    have l2 := run_runs_length hs
    rcases step_runs h with e | ⟨g, r, r', hg, hne, _⟩ | e
    · rw [← e]
      exact ih (e ▸ ha) (by rw [e]; exact hl)
    · exact absurd (ha r (List.mem_of_getElem? hg)) hne.not_ended
    · rw [e, List.length_append] at l2
      simp only [List.length_singleton] at l2
      omega

/-- **C47**, restart: after `WaitForTermination` has got past its wait, and whatever happens then except that somebody else starts the mock,
a call of `Start` does not panic. -/
theorem C47_startable {s s' s'' : Sys} (h : s.Reachable) {i : Nat} (hw : WaitReturns s i s') {tr : List SEv} (hr : Sys.Run s' tr s'')
    (hno : s''.runs.length = s'.runs.length) {j : Nat} {r : Bool} (hj : s''.api j = .start .swap r) (c : Call) :
    ∃ t, s''.next (.api j c) = .ok t ∧ t.api j = .start .reset r := by
  obtain ⟨sv, clock, tr0, h0⟩ := h
  have ⟨_, _, c0, _, _, hn, _⟩ := hw
  have hs' : Sys.Run s [.life (.api i c0)] s' := .cons (.life hn) (.nil _)
  have hreach : Sys.Reachable s'' := ⟨sv, clock, _, (h0.append hs').append hr⟩
  have ha := (C47_terminated_partial ⟨sv, clock, tr0, h0⟩ hw).1
  have hruns := run_all_ended hr ha hno
  have hi := hreach.inv
  have hmu : s''.mu = some (.api j) := (hi.mu (.api j)).1 (by simp only [Sys.holds, hj]; rfl)
  have hst : s''.started = false := by
    have e := hi.started
    rw [hruns, Sys.ofHolder_of_mu hmu, hj] at e
    have : s'.runs.countP (·.pc.running) = 0 := List.countP_eq_zero.2 fun r hr => by rw [ha r hr]; decide
    rw [this] at e
    cases hs : s''.started with
    | false => rfl
    | true => rw [hs] at e; cases e
  refine ⟨_, by simp only [Sys.next, Sys.apiStep, hj, Sys.startStep, hst, Bool.false_eq_true, if_false]; rfl, ?_⟩
  simp [Sys.setApi]

/-! ### Schedules for examples -/

/-- Caller `i` makes a call and takes `n` steps. -/
def caller (i : Nat) (c : Call) (n : Nat) : List Pick := List.replicate n (.api i c)

/-- Caller `i` calls `Start`, from the call to the return. -/
def starts (i : Nat) : List Pick := caller i .start 10

/-- Accept loop `g` gets ready to accept. -/
def opens (g : Nat) : List Pick := List.replicate 3 (.run g)

/-- Accept loop `g` accepts a connection and starts its handler. -/
def accepts (g : Nat) : List Pick := List.replicate 7 (.run g)

/-- The client of connection `c` disconnects; the handler's loop ends. -/
def leaves (c : Nat) : List Pick := [.conn c, .conn c, .recv c .closed, .conn c]

/-- The handler of connection `c` finds the mock stopped and closes the connection. -/
def windsUp (c : Nat) : List Pick := List.replicate 4 (.conn c)

/-- The close callback of connection `c`. -/
def closesUp (c : Nat) : List Pick := List.replicate 5 (.conn c)

/-- The mock after a schedule (the new mock if the schedule is impossible). -/
def after (ps : List Pick) : Sys := ((Sys.play ps (Sys.new ⟨9092, []⟩ 0)).map Prod.snd).getD (Sys.new ⟨9092, []⟩ 0)

theorem after_reachable (ps : List Pick) : (after ps).Reachable := by
  unfold after
  cases h : Sys.play ps (Sys.new ⟨9092, []⟩ 0) with
  | none => exact ⟨_, _, [], .nil _⟩
  | some x => exact ⟨_, _, x.1, Sys.play_sound h⟩

/-- Two clients connect, the first one leaves. -/
def twoClients : List Pick := starts 0 ++ opens 0 ++ accepts 0 ++ accepts 0 ++ leaves 0 ++ closesUp 0

/-- One live connection and one accept loop: `wg` is 2, `active` is 1. -/
example : (after twoClients).mu = none ∧ (after twoClients).wg = 2 ∧ (after twoClients).active = 1 ∧ liveLoops (after twoClients) = 1 ∧
    liveConns (after twoClients) = 1 := ⟨rfl, rfl, rfl, rfl, rfl⟩

/-- A client connects, the mock is stopped, the handler closes the connection; caller 1 waits for termination. The handler has yet to unlock `km.mu`. -/
def stopWhileClosing : List Pick :=
  starts 0 ++ opens 0 ++ accepts 0 ++ caller 1 .requestStop 8 ++ [.run 0] ++ windsUp 0 ++ List.replicate 3 (.conn 0) ++
    List.replicate 3 (.run 0) ++ [.conn 0] ++ caller 1 .waitForTermination 1

/-- **C47** is false to the letter: `WaitForTermination` can get past its wait while a connection handler still holds `km.mu`. -/
theorem C47_false : ¬ ∀ (s s' : Sys) (i : Nat), s.Reachable → WaitReturns s i s' → ∀ k ∈ s'.conns, k.pc = .ended := by
  intro h
  have hw : WaitReturns (after stopWhileClosing) 1 ((after stopWhileClosing).setApi 1 (.stop .swap .wait)) :=
    ⟨.enter, false, .waitForTermination, .wait, rfl, rfl, rfl⟩
  have := h _ _ 1 (after_reachable stopWhileClosing) hw ⟨0, 1, 0, .oc .unlock⟩ (List.mem_singleton.2 rfl)
  cases this

/-- The wait of C47 is passed in a state where a connection has been served and the mock stopped; `Start` is then called. -/
example : ∃ s s' s'' tr, s.Reachable ∧ WaitReturns s 1 s' ∧ Sys.Run s' tr s'' ∧ s''.runs.length = s'.runs.length ∧ s''.runs.length = 1 ∧
    s''.api 1 = .start .swap false := by
  let s := after stopWhileClosing
  let s' := s.setApi 1 (.stop .swap .wait)
  have hp : Sys.play ([.conn 0] ++ caller 1 .start 3) s' =
    some (((Sys.play ([.conn 0] ++ caller 1 .start 3) s').getD ([], s')).1, ((Sys.play ([.conn 0] ++ caller 1 .start 3) s').getD ([], s')).2) := rfl
  exact ⟨s, s', _, _, after_reachable _, ⟨.enter, false, .waitForTermination, .wait, rfl, rfl, rfl⟩, Sys.play_sound hp, rfl, rfl, rfl⟩

/-! ### C51: tearing down once -/

/-- The accept loop has opened its listener and stored it in `km.listener`. -/
def opened : RunPc → Bool
  | .listen | .setListener => false
  | _ => true

/-- What is known of an accept loop and is never lost again. -/
theorem step_keeps {P : RunPc → Bool} (hP : ∀ pc pc', P pc = true → pc' ∈ pc.next → P pc' = true) {s s' : Sys} {e : SEv} (h : Sys.Step s e s')
    {g : Nat} {r : RunG} (hg : s.runs[g]? = some r) (hr : P r.pc = true) : ∃ r', s'.runs[g]? = some r' ∧ P r'.pc = true ∧ r.cxn ≤ r'.cxn := by
  have hlt : g < s.runs.length := (List.getElem?_eq_some_iff.1 hg).1
  rcases step_runs h with e | ⟨g1, r1, r2, h1, hn, e⟩ | e
  · exact ⟨r, by rw [e]; exact hg, hr, Nat.le_refl _⟩
  · by_cases eq : g = g1
    · subst eq
      rw [hg] at h1; cases h1
      refine ⟨r2, by rw [e, List.getElem?_set_self hlt], hP _ _ hr hn.1, ?_⟩
      rw [hn.2]; split <;> omega
    · exact ⟨r, by rw [e, List.getElem?_set_ne (Ne.symm eq)]; exact hg, hr, Nat.le_refl _⟩
  · exact ⟨r, by rw [e, List.getElem?_append_left hlt]; exact hg, hr, Nat.le_refl _⟩

theorem opened_next (pc pc' : RunPc) (h : opened pc = true) (h' : pc' ∈ pc.next) : opened pc' = true := by
  cases pc <;> simp only [RunPc.next, List.mem_cons, List.not_mem_nil, or_false] at h' <;> first | cases h; done | skip
  all_goals first | (subst h'; rfl) | (rcases h' with rfl | rfl <;> rfl) | cases h'

/-- How `km.listener` and the closed listeners change. -/
theorem step_listener {s s' : Sys} {e : SEv} (h : Sys.Step s e s') :
    (s'.listener = s.listener ∧ s'.closes = s.closes) ∨ (s'.listener = none ∧ s'.closes = s.closes) ∨
    (∃ g, s.listener = some g ∧ s'.listener = none ∧ s'.closes = g :: s.closes) ∨
    (∃ g r r', s.runs[g]? = some r ∧ r.pc = .setListener ∧ s'.runs = s.runs.set g r' ∧ r'.pc = .initDone ∧ s'.listener = some g ∧ s'.closes = s.closes) := by
  cases h with
  | @life _ c hn =>
    cases c with
    | api i c =>
      simp only [Sys.next, Sys.apiStep] at hn
      split at hn
      · cases hn; exact .inl ⟨rfl, rfl⟩
      · cases hn; exact .inl ⟨rfl, rfl⟩
      · next k r hk =>
        clear hk
        cases k <;> simp only [Sys.startStep, Sys.lockMu] at hn <;> (try split at hn) <;> cases hn <;> first | exact .inl ⟨rfl, rfl⟩ | exact .inr (.inl ⟨rfl, rfl⟩)
      · next k b hk =>
        clear hk
        cases k
        case init k => cases k <;> simp only [Sys.stopStep, Sys.waitStep, reduceCtorEq, Out.ok.injEq] at hn <;> subst hn <;> exact .inl ⟨rfl, rfl⟩
        case close =>
          simp only [Sys.stopStep] at hn
          split at hn <;> cases hn
          · next g hg => exact .inr (.inr (.inl ⟨g, hg, rfl, rfl⟩))
          · exact .inl ⟨rfl, rfl⟩
        all_goals
          simp only [Sys.stopStep, Sys.lockMu] at hn
          (try split at hn) <;> cases hn <;> exact .inl ⟨rfl, rfl⟩
      · next k r hk => clear hk; cases k <;> simp only [Sys.waitStep, reduceCtorEq, Out.ok.injEq] at hn <;> subst hn <;> exact .inl ⟨rfl, rfl⟩
      · next k hk => clear hk; cases k <;> simp only [Sys.waitStep, reduceCtorEq, Out.ok.injEq] at hn <;> subst hn <;> exact .inl ⟨rfl, rfl⟩
      · split at hn <;> cases hn <;> exact .inl ⟨rfl, rfl⟩
      · cases hn; exact .inl ⟨rfl, rfl⟩
      · cases hn
      · cases hn
    | run g ok =>
      simp only [Sys.next, Sys.runStep] at hn
      split at hn
      · cases hn
      next r hr =>
      cases hp : r.pc <;> simp only [hp] at hn
      case setListener => cases hn; exact .inr (.inr (.inr ⟨g, r, _, hr, hp, rfl, rfl, rfl, rfl⟩))
      case initDone =>
        cases he : s.initDone <;> rw [he] at hn <;> cases hn
        unfold Sys.initDone at he
        split at he <;> cases he <;> exact .inl ⟨rfl, rfl⟩
      case wgDone =>
        cases he : s.wgDone <;> rw [he] at hn <;> cases hn
        unfold Sys.wgDone at he
        split at he <;> cases he <;> exact .inl ⟨rfl, rfl⟩
      case lock => unfold Sys.lockMu at hn; split at hn <;> cases hn; exact .inl ⟨rfl, rfl⟩
      case accept =>
        split at hn
        · cases hn; exact .inl ⟨rfl, rfl⟩
        · split at hn <;> cases hn; exact .inl ⟨rfl, rfl⟩
      case ended => cases hn
      all_goals first
        | (cases hn; exact .inl ⟨rfl, rfl⟩)
        | (split at hn <;> cases hn; exact .inl ⟨rfl, rfl⟩)
    | conn c =>
      simp only [Sys.next, Sys.connStep] at hn
      split at hn
      · cases hn
      next k hk =>
      split at hn
      · cases hn; exact .inl ⟨rfl, rfl⟩
      · cases hn
      · cases hn
      · unfold Sys.lockMu at hn; split at hn <;> cases hn; exact .inl ⟨rfl, rfl⟩
      · split at hn <;> cases hn; exact .inl ⟨rfl, rfl⟩
      · cases he : s.activeDone <;> rw [he] at hn <;> cases hn
        unfold Sys.activeDone at he
        split at he <;> cases he; exact .inl ⟨rfl, rfl⟩
      · cases he : s.wgDone <;> rw [he] at hn <;> cases hn
        unfold Sys.wgDone at he
        split at he <;> cases he <;> exact .inl ⟨rfl, rfl⟩
      · cases hn; exact .inl ⟨rfl, rfl⟩
      · cases hn
    | parentCancel => cases hn; exact .inl ⟨rfl, rfl⟩
  | conn => exact .inl ⟨rfl, rfl⟩
  | unroll => exact .inl ⟨rfl, rfl⟩
  | call => exact .inl ⟨rfl, rfl⟩
  | tick => exact .inl ⟨rfl, rfl⟩

structure ListenerInv (s : Sys) : Prop where
  current : ∀ g, s.listener = some g → g ∉ s.closes ∧ ∃ r, s.runs[g]? = some r ∧ opened r.pc = true
  closed : ∀ g ∈ s.closes, ∃ r, s.runs[g]? = some r ∧ opened r.pc = true
  once : s.closes.Nodup

theorem step_listenerInv {s s' : Sys} {e : SEv} (h : Sys.Step s e s') (hi : ListenerInv s) : ListenerInv s' := by
  have keep : ∀ g : Nat, (∃ r, s.runs[g]? = some r ∧ opened r.pc = true) → ∃ r, s'.runs[g]? = some r ∧ opened r.pc = true := by
    rintro g ⟨r, h1, h2⟩
    obtain ⟨r', h3, h4, _⟩ := step_keeps opened_next h h1 h2
    exact ⟨r', h3, h4⟩
  rcases step_listener h with ⟨e1, e2⟩ | ⟨e1, e2⟩ | ⟨g, e0, e1, e2⟩ | ⟨g, r, r', hr, hp, e0, hp', e1, e2⟩
  · refine ⟨?_, ?_, ?_⟩ <;> simp only [e1, e2]
    · intro g hg; exact ⟨(hi.current g hg).1, keep g (hi.current g hg).2⟩
    · intro g hg; exact keep g (hi.closed g hg)
    · exact hi.once
  · refine ⟨?_, ?_, ?_⟩ <;> simp only [e1, e2]
    · intro g hg; cases hg
    · intro g hg; exact keep g (hi.closed g hg)
    · exact hi.once
  · refine ⟨?_, ?_, ?_⟩ <;> simp only [e1, e2]
    · intro g hg; cases hg
    · intro g' hg
      rcases List.mem_cons.1 hg with rfl | hg
      · exact keep _ (hi.current _ e0).2
      · exact keep _ (hi.closed _ hg)
    · exact List.nodup_cons.2 ⟨(hi.current _ e0).1, hi.once⟩
  · have hno : g ∉ s.closes := by
      intro hg
      obtain ⟨r2, h1, h2⟩ := hi.closed g hg
      rw [hr] at h1; cases h1
      rw [hp] at h2; cases h2
    refine ⟨?_, ?_, ?_⟩ <;> simp only [e1, e2]
    · intro g' hg
      cases hg
      exact ⟨hno, r', by rw [e0, List.getElem?_set_self (List.getElem?_eq_some_iff.1 hr).1], by rw [hp']; rfl⟩
    · intro g hg; exact keep g (hi.closed g hg)
    · exact hi.once

theorem reachable_listenerInv {s : Sys} (h : s.Reachable) : ListenerInv s := by
  obtain ⟨sv, clock, tr, hr⟩ := h
  have h0 : ListenerInv (Sys.new sv clock) := ⟨fun _ h => (by cases h), fun _ h => (by cases h), List.nodup_nil⟩
  generalize Sys.new sv clock = s0 at hr h0
  induction hr with
  | nil => exact h0
  | cons h _ ih => exact ih (step_listenerInv h h0)

/-- **C51**, listener: however `RequestStop` and everything else is called, the listener of each start is closed at most once. -/
theorem C51_listener_once {s : Sys} (h : s.Reachable) (g : Nat) : s.closes.count g ≤ 1 :=
  List.nodup_iff_count.1 (reachable_listenerInv h).once g

/-- Two overlapping calls of `RequestStop`, one by `WaitForTermination`: the listener and the context are torn down once. -/
example : let s := after (starts 0 ++ opens 0 ++ caller 1 .requestStop 3 ++ caller 2 .requestStop 8 ++ caller 1 .requestStop 5)
    s.closes = [0] ∧ s.cancels = [0] := ⟨rfl, rfl⟩

/-- `RequestStop` begins while `Start` is between lines 49 and 55; afterwards `RequestStop` is called again. -/
def stopDuringStart : List Pick :=
  caller 0 .start 3 ++ caller 1 .requestStop 4 ++ caller 0 .start 7 ++ caller 1 .requestStop 4 ++ opens 0 ++ caller 1 .requestStop 8

/-- **C51** is false for the context: when `RequestStop` overlaps with `Start`, it cancels the context without stopping the server,
and a second `RequestStop` cancels it again. -/
theorem C51_false : ¬ ∀ (s : Sys) (g : Nat), s.Reachable → s.cancels.count g ≤ 1 := by
  intro h
  have := h _ 0 (after_reachable stopDuringStart)
  revert this
  show ¬ ([0, 0] : List Nat).count 0 ≤ 1
  decide

/-- The first of the two calls has returned, the context is cancelled, and yet the listener is open and `stopped` is not set:
the server accepts connections and closes them at once. -/
example : let s := after (caller 0 .start 3 ++ caller 1 .requestStop 4 ++ caller 0 .start 7 ++ caller 1 .requestStop 4 ++ opens 0)
    s.api 1 = .idle ∧ s.isDone 0 = true ∧ s.listener = some 0 ∧ s.closes = [] ∧ s.stopped = false := ⟨rfl, rfl, rfl, rfl, rfl⟩

/-- A run all of whose states satisfy `P`. -/
inductive RunIn (P : Sys → Prop) : Sys → List SEv → Sys → Prop where
  | nil {s : Sys} (h : P s) : RunIn P s [] s
  | cons {s s1 s2 : Sys} {e : SEv} {es : List SEv} (hp : P s) (h : Sys.Step s e s1) (hs : RunIn P s1 es s2) : RunIn P s (e :: es) s2

theorem RunIn.run {P : Sys → Prop} {s s' : Sys} {tr : List SEv} (h : RunIn P s tr s') : Sys.Run s tr s' := by
  induction h with
  | nil => exact .nil _
  | cons _ h _ ih => exact .cons h ih

theorem RunIn.first {P : Sys → Prop} {s s' : Sys} {tr : List SEv} (h : RunIn P s tr s') : P s := by
  cases h <;> assumption

/-- The caller is in `Start` and has `km.mu`. -/
def inStart : ApiPc → Bool
  | .start .lock _ => false
  | .start _ _ => true
  | _ => false

/-- The caller is in `RequestStop`, after line 67. -/
def inStop : ApiPc → Bool
  | .stop .swap _ => false
  | .stop _ _ => true
  | _ => false

/-- No call of `Start` is under way together with a call of `RequestStop`. -/
def NoOverlap (s : Sys) : Prop := ∀ i j, inStart (s.api i) = true → inStop (s.api j) = false

def atDerive : ApiPc → Bool
  | .start .derive _ => true
  | _ => false

def derived : ApiPc → Bool
  | .start .addWg _ | .start .addInit _ | .start .spawn _ => true
  | _ => false

structure CancelInv (s : Sys) : Prop where
  one : ∀ i j, inStop (s.api i) = true → inStop (s.api j) = true → i = j
  stopping : ∀ i, inStop (s.api i) = true → s.stopped = true ∧ ∀ c, s.ctx = some c → c ∉ s.cancels
  fresh : s.stopped = false → (∀ c, s.ctx = some c → c ∉ s.cancels) ∨ ∃ i, atDerive (s.api i) = true
  old : ∀ c ∈ s.cancels, c < s.runs.length
  ctx : ∀ c, s.ctx = some c → c ≤ s.runs.length ∧ (c = s.runs.length → ∃ i, derived (s.api i) = true)
  once : s.cancels.Nodup

/-- Steps that change none of the fields involved, except that the list of accept loops may change in place. -/
theorem CancelInv.congr {s s' : Sys} (h : CancelInv s) (e1 : s'.stopped = s.stopped) (e2 : s'.ctx = s.ctx) (e3 : s'.cancels = s.cancels)
    (e4 : s'.runs.length = s.runs.length) (hs : ∀ i, inStop (s'.api i) = inStop (s.api i)) (hd : ∀ i, atDerive (s'.api i) = atDerive (s.api i))
    (hd' : ∀ i, derived (s'.api i) = derived (s.api i)) : CancelInv s' := by
  obtain ⟨a, b, c, d, e, f⟩ := h
  refine ⟨?_, ?_, ?_, ?_, ?_, ?_⟩ <;> simp only [e1, e2, e3, e4, hs, hd, hd'] <;> assumption

/-- Caller `i` goes to `pc` and the fields involved do not change. -/
theorem CancelInv.move {s s' : Sys} (h : CancelInv s) {i : Nat} {pc : ApiPc} (hapi : ∀ j, s'.api j = if j = i then pc else s.api j)
    (e1 : s'.stopped = s.stopped) (e2 : s'.ctx = s.ctx) (e3 : s'.cancels = s.cancels) (e4 : s'.runs = s.runs)
    (h1 : inStop pc = true → inStop (s.api i) = true) (h2 : atDerive (s.api i) = false) (h3 : derived (s.api i) = true → derived pc = true) : CancelInv s' := by
  have hin : ∀ j, inStop (s'.api j) = true → inStop (s.api j) = true := by
    intro j hj
    rw [hapi] at hj
    by_cases e : j = i
    · subst e; rw [if_pos rfl] at hj; exact h1 hj
    · rw [if_neg e] at hj; exact hj
  refine ⟨?_, ?_, ?_, ?_, ?_, ?_⟩
  · intro a b ha hb; exact h.one a b (hin a ha) (hin b hb)
  · intro a ha; rw [e1, e2, e3]; exact h.stopping a (hin a ha)
  · rw [e1, e2, e3]
    intro hs
    rcases h.fresh hs with h | ⟨j, hj⟩
    · exact .inl h
    · refine .inr ⟨j, ?_⟩
      rw [hapi, if_neg]; · exact hj
      intro e; subst e; rw [h2] at hj; cases hj
  · rw [e3, e4]; exact h.old
  · rw [e2, e4]
    intro c hc
    obtain ⟨x, y⟩ := h.ctx c hc
    refine ⟨x, fun e => ?_⟩
    obtain ⟨j, hj⟩ := y e
    by_cases e : j = i
    · subst e; exact ⟨j, by rw [hapi, if_pos rfl]; exact h3 hj⟩
    · exact ⟨j, by rw [hapi, if_neg e]; exact hj⟩
  · rw [e3]; exact h.once

theorem next_not_inStop (b : StopBy) : inStop b.next = false := by cases b <;> rfl

theorem startStep_cancelInv {s s' : Sys} (h : CancelInv s) (hp : NoOverlap s) {i : Nat} {r : Bool} {k : StartPc} (hk : s.api i = .start k r)
    (hn : s.startStep i r k = .ok s') : CancelInv s' := by
  have hno : k ≠ .lock → ∀ j, inStop (s.api j) = false := by
    intro hl j
    refine hp i j ?_
    rw [hk]; cases k <;> first | rfl | exact absurd rfl hl
  have hnone : ∀ {pc : ApiPc} (j : Nat), k ≠ .lock → inStop pc = false → inStop (if j = i then pc else s.api j) = false := by
    intro pc j hl hpc
    by_cases e : j = i
    · rw [if_pos e]; exact hpc
    · rw [if_neg e]; exact hno hl j
  cases k
  case unstop =>
    simp only [Sys.startStep] at hn; cases hn
    have hn := fun j => hnone (pc := .start .derive r) j (by decide) rfl
    refine ⟨?_, ?_, ?_, h.old, ?_, h.once⟩
    · intro a b ha; exact Bool.noConfusion ((hn a).symm.trans ha)
    · intro a ha; exact Bool.noConfusion ((hn a).symm.trans ha)
    · intro _; exact .inr ⟨i, by simp [Sys.setApi, atDerive]⟩
    · intro c hc
      obtain ⟨x, y⟩ := h.ctx c hc
      refine ⟨x, fun e => ?_⟩
      obtain ⟨j, hj⟩ := y e
      refine ⟨j, ?_⟩
      simp only [Sys.setApi]
      rw [if_neg]; · exact hj
      intro e; subst e; rw [hk] at hj; cases hj
  case derive =>
    simp only [Sys.startStep] at hn; cases hn
    have hn := fun j => hnone (pc := .start .addWg r) j (by decide) rfl
    have hf : ∀ c, some s.runs.length = some c → c ∉ s.cancels := by
      intro c hc hm
      cases hc
      have := h.old _ hm
      omega
    refine ⟨?_, ?_, ?_, h.old, ?_, h.once⟩
    · intro a b ha; exact Bool.noConfusion ((hn a).symm.trans ha)
    · intro a ha; exact Bool.noConfusion ((hn a).symm.trans ha)
    · intro _; exact .inl hf
    · intro c hc
      simp only [Sys.setApi, Option.some.injEq] at hc
      subst hc
      exact ⟨Nat.le_refl _, fun _ => ⟨i, by simp [Sys.setApi, derived]⟩⟩
  case spawn =>
    simp only [Sys.startStep] at hn; cases hn
    have hn := fun j => hnone (pc := .start .unlock r) j (by decide) rfl
    refine ⟨?_, ?_, ?_, ?_, ?_, h.once⟩
    · intro a b ha; exact Bool.noConfusion ((hn a).symm.trans ha)
    · intro a ha; exact Bool.noConfusion ((hn a).symm.trans ha)
    · intro hs
      rcases h.fresh hs with h | ⟨j, hj⟩
      · exact .inl h
      · refine .inr ⟨j, ?_⟩
        simp only [Sys.setApi]
        rw [if_neg]; · exact hj
        intro e; subst e; rw [hk] at hj; cases hj
    · intro c hc
      have := h.old c hc
      simp only [Sys.setApi, List.length_append]; omega
    · intro c hc
      have := (h.ctx c hc).1
      simp only [Sys.setApi, List.length_append, List.length_singleton]
      exact ⟨by omega, fun e => by omega⟩
  all_goals
    simp only [Sys.startStep, Sys.lockMu] at hn
    (try split at hn) <;> cases hn
    all_goals first
      | exact h.move (fun j => rfl) rfl rfl rfl rfl (fun h => by cases h) (by rw [hk]; rfl) (fun h => by rw [hk] at h; first | rfl | cases h)
      | exact h.move (fun j => rfl) rfl rfl rfl rfl (fun h => by cases r <;> cases h) (by rw [hk]; rfl) (fun h => by rw [hk] at h; cases h)

theorem waitStep_cancelInv {s s' : Sys} (h : CancelInv s) {i n : Nat} {k : WaitPc} {at' : WaitPc → ApiPc} {b : ApiPc} (hd : atDerive (s.api i) = false)
    (hd' : derived (s.api i) = false) (ha : inStop (at' .asleep) = true → inStop (s.api i) = true) (hb : inStop b = true → inStop (s.api i) = true)
    (hn : s.waitStep i n k at' b = .ok s') : CancelInv s' := by
  cases k <;> simp only [Sys.waitStep, reduceCtorEq, Out.ok.injEq] at hn <;> subst hn
  · refine h.move (fun j => rfl) rfl rfl rfl rfl ?_ hd (by rw [hd']; intro h; cases h)
    split <;> assumption
  · refine h.move (fun j => rfl) rfl rfl rfl rfl ?_ hd (by rw [hd']; intro h; cases h)
    split
    · exact hb
    · intro h; cases h

theorem stopStep_cancelInv {s s' : Sys} (h : CancelInv s) (hp : NoOverlap s) (hp' : NoOverlap s') {i : Nat} {b : StopBy} {k : StopPc}
    (hk : s.api i = .stop k b) (hn : s.stopStep i b k = .ok s') : CancelInv s' := by
  cases k
  case init k =>
    simp only [Sys.stopStep] at hn
    exact waitStep_cancelInv h (by rw [hk]; rfl) (by rw [hk]; rfl) (fun _ => by rw [hk]; rfl) (fun _ => by rw [hk]; rfl) hn
  case swap =>
    simp only [Sys.stopStep] at hn; cases hn
    cases hs : s.stopped with
    | true =>
      refine h.move (i := i) (pc := b.next) (fun j => rfl) hs.symm rfl rfl rfl ?_ (by rw [hk]; rfl) (by rw [hk]; intro h; cases h)
      rw [next_not_inStop]; intro h; cases h
    | false =>
      rw [hs, if_neg (by decide)] at hp'
      rw [if_neg (by decide)]
      have hno : ∀ j, inStop (s.api j) = false := by
        intro j
        cases hj : inStop (s.api j) with
        | false => rfl
        | true => have := (h.stopping j hj).1; rw [hs] at this; cases this
      have hf : ∀ c, s.ctx = some c → c ∉ s.cancels := by
        rcases h.fresh hs with h | ⟨j, hj⟩
        · exact h
        · exfalso
          have hji : j ≠ i := by intro e; subst e; rw [hk] at hj; cases hj
          have := hp' j i (by
            simp only [Sys.setApi, if_neg hji]
            revert hj
            cases s.api j with
            | start k r => cases k <;> intro hj <;> first | rfl | cases hj
            | _ => intro hj; cases hj)
          simp [Sys.setApi, inStop] at this
      have only : ∀ j, inStop (if j = i then ApiPc.stop .load b else s.api j) = true → j = i := by
        intro j hj
        by_cases e : j = i
        · exact e
        · rw [if_neg e, hno j] at hj; cases hj
      refine ⟨?_, ?_, ?_, h.old, ?_, h.once⟩
      · intro a c ha hc; rw [only a ha, only c hc]
      · intro a _; exact ⟨rfl, hf⟩
      · intro e; cases e
      · intro c hc
        obtain ⟨x, y⟩ := h.ctx c hc
        refine ⟨x, fun e => ?_⟩
        obtain ⟨j, hj⟩ := y e
        refine ⟨j, ?_⟩
        simp only [Sys.setApi]
        rw [if_neg]; · exact hj
        intro e; subst e; rw [hk] at hj; cases hj
  case cancel =>
    simp only [Sys.stopStep] at hn
    have hin : inStop (s.api i) = true := by rw [hk]; rfl
    split at hn
    · next c hc =>
      cases hn
      have hno : ∀ j, inStop (if j = i then b.next else s.api j) = false := by
        intro j
        by_cases e : j = i
        · rw [if_pos e]; exact next_not_inStop b
        · rw [if_neg e]
          cases hj : inStop (s.api j) with
          | false => rfl
          | true => exact absurd (h.one j i hj hin) e
      refine ⟨?_, ?_, ?_, ?_, ?_, ?_⟩
      · intro a b ha; exact Bool.noConfusion ((hno a).symm.trans ha)
      · intro a ha; exact Bool.noConfusion ((hno a).symm.trans ha)
      · intro e; exact Bool.noConfusion ((show s.stopped = false from e).symm.trans (h.stopping i hin).1)
      · intro c' hc'
        obtain ⟨x, y⟩ := h.ctx c hc
        have hlt : c < s.runs.length := by
          rcases Nat.lt_or_eq_of_le x with h | e
          · exact h
          · obtain ⟨j, hj⟩ := y e
            have := hp j i (by
              revert hj
              cases s.api j with
              | start k r => cases k <;> intro hj <;> first | rfl | cases hj
              | _ => intro hj; cases hj)
            rw [hin] at this; cases this
        rcases List.mem_cons.1 hc' with rfl | hc'
        · exact hlt
        · exact h.old _ hc'
      · intro c' hc'
        obtain ⟨x, y⟩ := h.ctx c' hc'
        refine ⟨x, fun e => ?_⟩
        obtain ⟨j, hj⟩ := y e
        refine ⟨j, ?_⟩
        simp only [Sys.setApi]
        rw [if_neg]; · exact hj
        intro e; subst e; rw [hk] at hj; cases hj
      · exact List.nodup_cons.2 ⟨(h.stopping i hin).2 c hc, h.once⟩
    · cases hn
      exact h.move (fun j => rfl) rfl rfl rfl rfl (fun h => by cases h) (by rw [hk]; rfl) (fun h => by rw [hk] at h; cases h)
  case load =>
    simp only [Sys.stopStep] at hn; cases hn
    refine h.move (fun j => rfl) rfl rfl rfl rfl (fun _ => by rw [hk]; rfl) (by rw [hk]; rfl) (fun h => by rw [hk] at h; cases h)
  all_goals
    simp only [Sys.stopStep, Sys.lockMu] at hn
    (try split at hn) <;> cases hn
    all_goals exact h.move (fun j => rfl) rfl rfl rfl rfl (fun _ => by rw [hk]; rfl) (by rw [hk]; rfl) (fun h => by rw [hk] at h; cases h)

theorem apiStep_cancelInv {s s' : Sys} (h : CancelInv s) (hp : NoOverlap s) (hp' : NoOverlap s') {i : Nat} {c : Call} (hn : s.apiStep i c = .ok s') :
    CancelInv s' := by
  unfold Sys.apiStep at hn
  split at hn
  · next hk =>
    cases hn
    exact h.move (fun j => rfl) rfl rfl rfl rfl (fun h => by cases c <;> cases h) (by rw [hk]; rfl) (fun h => by rw [hk] at h; cases h)
  · next hk =>
    cases hn
    exact h.move (fun j => rfl) rfl rfl rfl rfl (fun h => by cases h) (by rw [hk]; rfl) (fun h => by rw [hk] at h; cases h)
  · next hk => exact startStep_cancelInv h hp hk hn
  · next hk => exact stopStep_cancelInv h hp hp' hk hn
  · next hk => exact waitStep_cancelInv h (by rw [hk]; rfl) (by rw [hk]; rfl) (fun h => by cases h) (fun h => by cases h) hn
  · next hk => exact waitStep_cancelInv h (by rw [hk]; rfl) (by rw [hk]; rfl) (fun h => by cases h) (fun h => by cases h) hn
  · next hk =>
    split at hn <;> cases hn
    all_goals exact h.move (fun j => rfl) rfl rfl rfl rfl (fun h => by cases h) (by rw [hk]; rfl) (fun h => by rw [hk] at h; cases h)
  · next hk =>
    cases hn
    exact h.move (fun j => rfl) rfl rfl rfl rfl (fun h => by cases h) (by rw [hk]; rfl) (fun h => by rw [hk] at h; cases h)
  · cases hn
  · cases hn

theorem _root_.KM.Woken.same {pc pc' : ApiPc} (h : Woken pc pc') : inStop pc' = inStop pc ∧ atDerive pc' = atDerive pc ∧ derived pc' = derived pc := by
  cases h with
  | not => exact ⟨rfl, rfl, rfl⟩
  | wg => unfold ApiPc.wakeWg; split <;> exact ⟨rfl, rfl, rfl⟩
  | init => unfold ApiPc.wakeInit; split <;> exact ⟨rfl, rfl, rfl⟩

theorem _root_.KM.Frame.cancelInv {s s' : Sys} (f : Frame s s') (hl : s'.runs.length = s.runs.length) (h : CancelInv s) : CancelInv s' :=
  h.congr f.stopped f.ctx f.cancels hl (fun i => (f.api i).same.1) (fun i => (f.api i).same.2.1) (fun i => (f.api i).same.2.2)

theorem step_cancelInv {s s' : Sys} {e : SEv} (h : Sys.Step s e s') (hp : NoOverlap s) (hp' : NoOverlap s') (hi : CancelInv s) : CancelInv s' := by
  cases h with
  | @life _ c hn =>
    cases c with
    | api i c => exact apiStep_cancelInv hi hp hp' hn
    | run g ok =>
      obtain ⟨r, r', _, _, e⟩ := runStep_runs hn
      exact (runStep_frame hn).cancelInv (by rw [e, List.length_set]) hi
    | conn c => exact (connStep_frame hn).cancelInv (by rw [connStep_runs hn]) hi
    | parentCancel => cases hn; exact hi.congr rfl rfl rfl rfl (fun _ => rfl) (fun _ => rfl) (fun _ => rfl)
  | conn => exact hi.congr rfl rfl rfl rfl (fun _ => rfl) (fun _ => rfl) (fun _ => rfl)
  | unroll => exact hi.congr rfl rfl rfl rfl (fun _ => rfl) (fun _ => rfl) (fun _ => rfl)
  | call hk => exact hi.move (fun j => rfl) rfl rfl rfl rfl (fun h => by cases h) (by rw [hk]; rfl) (fun h => by rw [hk] at h; cases h)
  | tick => exact hi.congr rfl rfl rfl rfl (fun _ => rfl) (fun _ => rfl) (fun _ => rfl)

/-- **C51**, context: as long as no call of `Start` overlaps with a call of `RequestStop` (`Restart` and `WaitForTermination` call both),
the context of each start is cancelled by `RequestStop` at most once. What is missing is the case of overlapping calls, where it is false. -/
theorem C51_context_once_partial {sv : Server} {clock : Int} {tr : List SEv} {s : Sys} (h : RunIn NoOverlap (Sys.new sv clock) tr s) (g : Nat) :
    s.cancels.count g ≤ 1 := by
  have h0 : CancelInv (Sys.new sv clock) :=
    ⟨fun _ _ h => (by cases h), fun _ h => (by cases h), fun _ => .inl (fun _ h => by cases h), fun _ h => (by cases h), fun _ h => (by cases h), List.nodup_nil⟩
  refine List.nodup_iff_count.1 (CancelInv.once ?_) g
  generalize Sys.new sv clock = s0 at h h0
  induction h with
  | nil => exact h0
  | cons hp h hs ih => exact ih (step_cancelInv h hp hs.first h0)

/-- Which caller of exported functions acted. -/
def SEv.caller : SEv → Option Nat
  | .life (.api i _) => some i
  | .call i _ _ => some i
  | _ => none

theorem apiStep_other {s s' : Sys} {i j : Nat} {c : Call} (hn : s.apiStep i c = .ok s') (hij : j ≠ i) : s'.api j = s.api j := by
  unfold Sys.apiStep at hn
  have key : ∀ (t : Sys) (pc : ApiPc), t.api = s.api → (t.setApi i pc).api j = s.api j := by
    intro t pc ht
    simp only [Sys.setApi, if_neg hij, ht]
  split at hn
  · cases hn; exact key _ _ rfl
  · cases hn; exact key _ _ rfl
  · next k r hk =>
    clear hk
    cases k <;> simp only [Sys.startStep, Sys.lockMu] at hn <;> (try split at hn) <;> cases hn <;> exact key _ _ rfl
  · next k b hk =>
    clear hk
    cases k
    case init k => cases k <;> simp only [Sys.stopStep, Sys.waitStep, reduceCtorEq, Out.ok.injEq] at hn <;> subst hn <;> exact key _ _ rfl
    all_goals
      simp only [Sys.stopStep, Sys.lockMu] at hn
      (try split at hn) <;> cases hn <;> exact key _ _ rfl
  · next k r hk => clear hk; cases k <;> simp only [Sys.waitStep, reduceCtorEq, Out.ok.injEq] at hn <;> subst hn <;> exact key _ _ rfl
  · next k hk => clear hk; cases k <;> simp only [Sys.waitStep, reduceCtorEq, Out.ok.injEq] at hn <;> subst hn <;> exact key _ _ rfl
  · split at hn <;> cases hn <;> exact key _ _ rfl
  · cases hn; exact key _ _ rfl
  · cases hn
  · cases hn

/-- A step of somebody else leaves a caller where it is, except that it may wake it. -/
theorem step_other {s s' : Sys} {e : SEv} (h : Sys.Step s e s') {j : Nat} (hj : SEv.caller e ≠ some j) : Woken (s.api j) (s'.api j) := by
  cases h with
  | @life _ c hn =>
    cases c with
    | api i c =>
      rw [apiStep_other hn (fun e => hj (by rw [e]; rfl))]
      exact .not
    | run g ok => exact (runStep_frame hn).api j
    | conn c => exact (connStep_frame hn).api j
    | parentCancel => cases hn; exact .not
  | conn => exact .not
  | unroll => exact .not
  | @call i a f r w hk ha =>
    rw [show ((({ s with ds := w.ds, clock := w.clock } : Sys).setApi i (.call (f r))).api j = s.api j) from
      if_neg (fun e => hj (by rw [e]; rfl))]
    exact .not
  | tick => exact .not

theorem _root_.KM.Woken.idle {pc : ApiPc} (h : Woken .idle pc) : pc = .idle := by cases h <;> rfl

/-- With a single goroutine calling the exported functions, calls do not overlap. -/
theorem single_caller {s s' : Sys} {tr : List SEv} (h : Sys.Run s tr s') {i : Nat} (h0 : ∀ j, j ≠ i → s.api j = .idle)
    (ht : ∀ e ∈ tr, SEv.caller e = none ∨ SEv.caller e = some i) : RunIn NoOverlap s tr s' := by
  have key : ∀ {s : Sys}, (∀ j, j ≠ i → s.api j = .idle) → NoOverlap s := by
    intro s h0 a b ha
    by_cases e : a = i
    · by_cases e' : b = i
      · subst e e'
        revert ha
        generalize s.api _ = pc
        intro ha
        cases pc <;> first | rfl | cases ha
      · rw [h0 b e']; rfl
    · rw [h0 a e] at ha; cases ha
  induction h with
  | nil => exact .nil (key h0)
  | cons h hs ih =>
    refine .cons (key h0) h (ih (fun j hj => ?_) (fun e he => ht e (List.mem_cons_of_mem _ he)))
    have := step_other h (j := j) (by
      rcases ht _ (List.mem_cons_self ..) with e | e <;> rw [e]
      · intro h; cases h
      · intro h; exact hj (Option.some.inj h).symm)
    rw [h0 j hj] at this
    exact this.idle

theorem starts_stops_run (ps : List Pick) {tr : List SEv} {s : Sys} (h : Sys.play ps (Sys.new ⟨9092, []⟩ 0) = some (tr, s))
    (ht : (tr.all fun e => SEv.caller e == none || SEv.caller e == some 0) = true) : RunIn NoOverlap (Sys.new ⟨9092, []⟩ 0) tr s := by
  refine single_caller (i := 0) (Sys.play_sound h) (fun _ _ => rfl) fun e he => ?_
  have := List.all_eq_true.1 ht e he
  simpa using this

/-- The hypothesis of `C51_context_once_partial` holds of a test that starts the mock, stops it twice, restarts it and stops it again:
the contexts of both starts are cancelled, each once. -/
example : ∃ tr s, RunIn NoOverlap (Sys.new ⟨9092, []⟩ 0) tr s ∧ s.cancels = [1, 0] ∧ s.closes = [1, 0] := by
  let ps := starts 0 ++ opens 0 ++ caller 0 .requestStop 8 ++ caller 0 .requestStop 2 ++ List.replicate 4 (.run 0) ++ caller 0 .restart 14 ++ opens 1 ++
    caller 0 .restart 1 ++ caller 0 .requestStop 8
  have hp : Sys.play ps (Sys.new ⟨9092, []⟩ 0) =
    some (((Sys.play ps (Sys.new ⟨9092, []⟩ 0)).getD ([], Sys.new ⟨9092, []⟩ 0)).1, ((Sys.play ps (Sys.new ⟨9092, []⟩ 0)).getD ([], Sys.new ⟨9092, []⟩ 0)).2) := rfl
  exact ⟨_, _, starts_stops_run ps hp (by decide +kernel), by decide +kernel, by decide +kernel⟩

theorem setApi_setApi (s : Sys) (i : Nat) (a b : ApiPc) : (s.setApi i a).setApi i b = s.setApi i b := by
  simp only [Sys.setApi]
  congr 1
  funext j
  split <;> rfl

theorem setApi_same {s : Sys} {i : Nat} {a : ApiPc} (h : s.api i = a) : s.setApi i a = s := by
  cases s
  simp only [Sys.setApi]
  congr 1
  funext j
  split
  · next e => subst e; exact h.symm
  · rfl

/-- Where `Start` leaves the mock. -/
def startedState (s : Sys) : Sys :=
  { s with mu := none, started := true, listener := none, clients := [], stopped := false, ctx := some s.runs.length, wg := s.wg + 1, init := s.init + 1,
           runs := s.runs ++ [⟨.listen, 0⟩] }

theorem start_run {s : Sys} {i : Nat} (hi : s.api i = .idle) (hs : s.started = false) (hm : s.mu = none) :
    Sys.Run s (List.replicate 10 (.life (.api i .start))) (startedState s) := by
  have step : ∀ {s s' s2 : Sys} {n : Nat}, s.apiStep i .start = .ok s' → Sys.Run s' (List.replicate n (.life (.api i .start))) s2 →
      Sys.Run s (List.replicate (n + 1) (.life (.api i .start))) s2 := fun h hr => .cons (.life h) hr
  have e : startedState s = (startedState s).setApi i .idle := (setApi_same (s := startedState s) hi).symm
  rw [e]
  refine step (by unfold Sys.apiStep; rw [hi]) ?_
  refine step (by simp only [Sys.apiStep, Sys.setApi, if_pos, Call.entry, Sys.startStep, Sys.lockMu, hm]; rfl) ?_
  refine step (by simp only [Sys.apiStep, Sys.setApi, if_pos, Sys.startStep, hs]; rfl) ?_
  refine step (by simp only [Sys.apiStep, Sys.setApi, if_pos, Sys.startStep]; rfl) ?_
  refine step (by simp only [Sys.apiStep, Sys.setApi, if_pos, Sys.startStep]; rfl) ?_
  refine step (by simp only [Sys.apiStep, Sys.setApi, if_pos, Sys.startStep]; rfl) ?_
  refine step (by simp only [Sys.apiStep, Sys.setApi, if_pos, Sys.startStep]; rfl) ?_
  refine step (by simp only [Sys.apiStep, Sys.setApi, if_pos, Sys.startStep]; rfl) ?_
  refine step (by simp only [Sys.apiStep, Sys.setApi, if_pos, Sys.startStep]; rfl) ?_
  refine step (by simp only [Sys.apiStep, Sys.setApi, if_pos, Sys.startStep]; rfl) ?_
  refine (fun e => e ▸ Sys.Run.nil _ : ∀ {s s' : Sys}, s = s' → Sys.Run s (List.replicate 0 (.life (.api i .start))) s') ?_
  simp only [Sys.setApi, startedState]
  congr 1
  funext j
  by_cases e : j = i <;> simp [e]

/-- **C51**, before `Start`: on a mock that is not started, `RequestStop` returns having changed nothing but the flag `stopped`. -/
theorem C51_before_start {s : Sys} {i : Nat} (hi : s.api i = .idle) (hs : s.started = false) :
    ∃ n, Sys.Run s (List.replicate n (.life (.api i .requestStop))) { s with stopped := true } := by
  cases hst : s.stopped with
  | true =>
    refine ⟨2, .cons (.life (by simp only [Sys.next]; unfold Sys.apiStep; rw [hi])) (.cons (s1 := s) (.life ?_) ?_)⟩
    · simp only [Sys.next, Sys.apiStep, Sys.setApi, Call.entry, if_pos, Sys.stopStep, Out.ok.injEq, hst, StopBy.next]
      cases s
      simp only at hst hi ⊢
      congr 1
      · exact hst.symm
      · funext j
        by_cases e : j = i <;> simp [e, hi]
    · rw [show ({ s with stopped := true } : Sys) = s from by rw [← hst]]
      exact .nil _
  | false =>
    refine ⟨3, .cons (.life (by simp only [Sys.next]; unfold Sys.apiStep; rw [hi]))
      (.cons (.life (by simp only [Sys.next, Sys.apiStep, Sys.setApi, if_pos, Call.entry, Sys.stopStep, hst]; rfl))
      (.cons (s1 := { s with stopped := true }) (.life ?_) (.nil _)))⟩
    simp only [Sys.next, Sys.apiStep, Sys.setApi, if_pos, Sys.stopStep, hs, Out.ok.injEq, StopBy.next, Bool.false_eq_true, if_false]
    congr 1
    funext j
    by_cases e : j = i <;> simp [e, hi]

/-- **C51**, before `Start`: `RequestStop` and then `Start` leave the mock as `Start` alone does. -/
theorem C51_stop_then_start {s : Sys} {i : Nat} (hi : s.api i = .idle) (hs : s.started = false) (hm : s.mu = none) :
    ∃ n s1, Sys.Run s (List.replicate n (.life (.api i .requestStop)) ++ List.replicate 10 (.life (.api i .start))) s1 ∧
      Sys.Run s (List.replicate 10 (.life (.api i .start))) s1 ∧ s1.api i = .idle ∧ s1.started = true ∧ s1.stopped = false := by
  obtain ⟨n, hn⟩ := C51_before_start hi hs
  exact ⟨n, startedState s, hn.append (start_run (s := { s with stopped := true }) hi hs hm), start_run hi hs hm, hi, rfl, rfl⟩

/-- The new mock is such a mock. -/
example : (Sys.new ⟨9092, []⟩ 0).api 0 = .idle ∧ (Sys.new ⟨9092, []⟩ 0).started = false ∧ (Sys.new ⟨9092, []⟩ 0).mu = none := ⟨rfl, rfl, rfl⟩

/-- So is one that was started and stopped. -/
example : let s := after (starts 0 ++ opens 0 ++ caller 0 .requestStop 8 ++ List.replicate 4 (.run 0))
    s.api 0 = .idle ∧ s.started = false ∧ s.mu = none ∧ s.stopped = true := ⟨rfl, rfl, rfl, rfl⟩

end KM.Props
