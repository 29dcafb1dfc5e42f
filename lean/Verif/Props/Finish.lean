import Verif.Props.Live
import Verif.Props.Posts
/-
C74: FinishRequests cancels the requests in service and leaves the mock running; only RequestStop and Restart close the listener.
-/
namespace KM
namespace Props

/-! ### What FinishRequests does -/

/-- `s'` is `s` but for what caller `i` is doing. -/
def OnlyCaller (i : Nat) (s s' : Sys) : Prop := s' = { s with api := s'.api } ∧ ∀ j, j ≠ i → s'.api j = s.api j

/-- A step of another goroutine, not the one that wakes it. -/
theorem step_keeps_finish {s s' : Sys} {e : SEv} (h : Sys.Step s e s') {i : Nat} (he : e.of ≠ some (.api i)) (hf : s.api i = .finish) : s'.api i = .finish := by
  rcases step_api h i with ⟨h1, _⟩ | ⟨_, h2⟩
  · exact absurd h1 he
  · rw [hf] at h2; generalize s'.api i = pc at h2; cases h2 <;> rfl

/-- **C74**, FinishRequests: the call takes two steps. The first changes nothing; the second cancels the context of the last Start, and nothing else: the listener stays open,
the accept loop, the connections, the records, the mutex, the counters and the other callers are as before. Before the first Start it panics. -/
theorem C74_finish {i : Nat} {c : Call} {tr : List SEv} {s0 s1 s2 s3 : Sys} (hi : s0.api i = .idle) (h1 : Sys.Step s0 (.life (.api i .finishRequests)) s1)
    (h2 : Sys.Run s1 tr s2) (hq : ∀ e ∈ tr, e.of ≠ some (.api i)) (h3 : Sys.Step s2 (.life (.api i c)) s3) :
    OnlyCaller i s0 s1 ∧ s1.api i ≠ .idle ∧
    (∀ g, s2.ctx = some g → OnlyCaller i { s2 with done := s3.done } s3 ∧ s3.api i = .idle ∧ s3.isDone g = true ∧ ∀ g', g' ≠ g → s3.isDone g' = s2.isDone g') ∧
    (s2.ctx = none → OnlyCaller i s2 s3 ∧ s3.api i = .panicked .nilCancel) := by
  have other : ∀ (s : Sys) (pc : ApiPc), OnlyCaller i s (s.setApi i pc) := fun s pc => ⟨rfl, fun j hj => if_neg hj⟩
  have self : ∀ (s : Sys) (pc : ApiPc), (s.setApi i pc).api i = pc := fun s pc => if_pos rfl
  have e1 : s1 = s0.setApi i .finish := by
    cases h1 with | life hn => simp only [Sys.next, Sys.apiStep, hi, Call.entry] at hn; cases hn; rfl
  have hf : s2.api i = .finish := by
    have : s1.api i = .finish := by rw [e1]; exact self _ _
    clear h1 h3 e1
    induction h2 with
    | nil => exact this
    | cons h _ ih => exact ih (fun e he => hq e (List.mem_cons_of_mem _ he)) (step_keeps_finish h (hq _ List.mem_cons_self) this)
  refine ⟨by rw [e1]; exact other _ _, by rw [e1, self]; nofun, ?_, ?_⟩
  all_goals cases h3 with | life hn => ?_
  all_goals simp only [Sys.next, Sys.apiStep, hf] at hn
  · intro g hg
    rw [hg] at hn; cases hn
    refine ⟨⟨by simp [Sys.setApi, hg], fun j hj => if_neg hj⟩, self _ _, by simp [Sys.isDone, Sys.setApi], ?_⟩
    intro g' hne
    simp [Sys.isDone, Sys.setApi, hne]
  · intro hg
    rw [hg] at hn; cases hn
    exact ⟨other _ _, self _ _⟩

/-! ### Who stops the mock -/

/-- The accept loop is in its `for` loop, /repo/kafka-mock.go:127-162. -/
def _root_.KM.RunPc.serving : RunPc → Bool
  | .accept | .select | .lock | .register | .addActive | .addWg | .unlock => true
  | _ => false

/-- The mock is up: accept loop `g` is in its loop and its listener is open. -/
structure Up (g : Nat) (s : Sys) : Prop where
  serving : ∃ r, s.runs[g]? = some r ∧ r.pc.serving = true
  open_ : g ∉ s.closes

/-- Nobody is in RequestStop, called by a test or as part of WaitForTermination or Restart. -/
def NoStop (s : Sys) : Prop := ∀ i k b, s.api i ≠ .stop k b

theorem early_inWg {pc : ConnPc} (h : pc.early = true) : pc.inWg = true := by
  match pc, h with
  | .body _, _ => rfl
  | .oc .lock, _ => rfl

theorem Up.wg {g : Nat} {s : Sys} (h : Up g s) (hi : s.Inv) : s.wg ≠ 0 := by
  obtain ⟨r, hr, hs⟩ := h.serving
  rw [hi.wg]
  by_cases hw : r.pc.inWg = true
  · have := List.countP_pos_iff (p := fun (r : RunG) => r.pc.inWg) (l := s.runs) |>.2 ⟨r, List.mem_of_getElem? hr, hw⟩
    omega
  · obtain ⟨c, k, hk, he, _⟩ := hi.fresh g r hr (by revert hw hs; cases r.pc <;> simp [RunPc.inWg, RunPc.serving])
    have := List.countP_pos_iff (p := fun (k : ConnG) => k.pc.inWg) (l := s.conns) |>.2 ⟨k, List.mem_of_getElem? hk, early_inWg he⟩
    omega

theorem NoStop.step {g : Nat} {s s' : Sys} {e : SEv} (h : Sys.Step s e s') (hi : s.Inv) (hu : Up g s) (hn : NoStop s)
    (he : ∀ i, e ≠ .life (.api i .requestStop) ∧ e ≠ .life (.api i .restart)) : NoStop s' := by
  intro i k b hk
  rcases step_api h i with ⟨h1, h2⟩ | ⟨_, h2⟩
  · generalize hp : s.api i = pc at h2
    rw [hk] at h2
    generalize hq : ApiPc.stop k b = pc' at h2
    cases h2 <;> first | exact absurd hp (hn i _ _) | (cases hq; done) | skip
    · next c =>
      rcases step_by_api h h1 with ⟨c', h3⟩ | ⟨_, _, _, _, h3, _⟩
      · cases h with
        | @life _ ch hl =>
          cases ch <;> cases h1
          next c2 =>
          simp only [Sys.next, Sys.apiStep, hp] at hl
          cases hl
          have hx : c2.entry = .stop k b := by rw [← hk]; exact (if_pos rfl).symm
          cases c2 <;> cases hx
          · exact (he i).1 rfl
          · exact (he i).2 rfl
        | conn => cases h1
        | unroll => cases h1
        | call hq => cases h1; rw [hp] at hq; cases hq
        | tick => cases h1
      · rw [hp] at h3; cases h3
    · next h0 => exact hu.wg hi h0
  · generalize hp : s.api i = pc at h2
    rw [hk] at h2
    generalize hq : ApiPc.stop k b = pc' at h2
    cases h2 <;> first | exact absurd (hp.trans hq.symm) (hn i _ _) | exact absurd hp (hn i _ _) | skip
    · unfold ApiPc.wakeWg at hq; split at hq
      · cases hq
      · exact absurd (hp.trans hq.symm) (hn i _ _)
    · unfold ApiPc.wakeInit at hq; split at hq
      · exact absurd hp (hn i _ _)
      · cases hq
      · exact absurd (hp.trans hq.symm) (hn i _ _)

/-- `Accept` fails only on a closed listener. -/
theorem accept_stays {g : Nat} {s s' : Sys} {e : SEv} (h : Sys.Step s e s') {r : RunG} (hr : s.runs[g]? = some r) (ha : r.pc = .accept) (hc : g ∉ s.closes) :
    ∃ r', s'.runs[g]? = some r' ∧ r'.pc.serving = true := by
  have hs : r.pc.serving = true := by rw [ha]; rfl
  have hlt := (List.getElem?_eq_some_iff.1 hr).1
  cases h with
  | @life _ c hn =>
    cases c with
    | api i c =>
      rcases apiStep_runs hn with e | e
      · exact ⟨r, by rw [e]; exact hr, hs⟩
      · exact ⟨r, by rw [e, List.getElem?_append_left hlt]; exact hr, hs⟩
    | run g' ok =>
      by_cases eq : g' = g
      · subst eq
        simp only [Sys.next, Sys.runStep, hr, ha, List.contains_iff_mem, hc, if_false] at hn
        split at hn <;> cases hn
        exact ⟨{ r with pc := .select }, List.getElem?_set_self hlt, rfl⟩
      · obtain ⟨_, _, _, _, e⟩ := runStep_runs hn
        exact ⟨r, by rw [e, List.getElem?_set_ne eq]; exact hr, hs⟩
    | conn c => exact ⟨r, by rw [connStep_runs hn]; exact hr, hs⟩
    | parentCancel => cases hn; exact ⟨r, hr, hs⟩
  | conn => exact ⟨r, hr, hs⟩
  | unroll => exact ⟨r, hr, hs⟩
  | call => exact ⟨r, hr, hs⟩
  | tick => exact ⟨r, hr, hs⟩

theorem serving_next {pc pc' : RunPc} (hs : pc.serving = true) (ha : pc ≠ .accept) (h : pc' ∈ pc.next) : pc'.serving = true := by
  cases pc <;> simp only [RunPc.next, List.mem_cons, List.not_mem_nil, or_false] at h <;> first | (cases hs; done) | exact absurd rfl ha | (subst h; rfl) | (rcases h with h | h <;> subst h <;> rfl)

theorem Up.step {g : Nat} {s s' : Sys} {e : SEv} (h : Sys.Step s e s') (hu : Up g s) (hn : NoStop s) : Up g s' := by
  have hc : s'.closes = s.closes := by
    rcases step_listener' h with ⟨_, e2, _⟩ | ⟨_, e2, _⟩ | ⟨_, ⟨i, b, e0⟩, _⟩ | ⟨_, _, _, _, _, _, e2⟩
    · exact e2
    · exact e2
    · exact absurd e0 (hn i _ _)
    · exact e2
  refine ⟨?_, by rw [hc]; exact hu.open_⟩
  obtain ⟨r, hr, hs⟩ := hu.serving
  have hlt := (List.getElem?_eq_some_iff.1 hr).1
  rcases step_runs h with e1 | ⟨g', r1, r2, h1, h2, e1⟩ | e1
  · exact ⟨r, by rw [e1]; exact hr, hs⟩
  · by_cases eq : g' = g
    · subst eq
      rw [hr] at h1; cases h1
      refine ⟨r2, by rw [e1]; exact List.getElem?_set_self hlt, ?_⟩
      have hx := h2.1
      have hw : s'.runs[g']? = some r2 := by rw [e1]; exact List.getElem?_set_self hlt
      by_cases ha : r.pc = .accept
      · obtain ⟨r', h3, h4⟩ := accept_stays h hr ha hu.open_
        rw [hw] at h3; cases h3; exact h4
      · exact serving_next hs ha hx
    · exact ⟨r, by rw [e1, List.getElem?_set_ne eq]; exact hr, hs⟩
  · exact ⟨r, by rw [e1, List.getElem?_append_left hlt]; exact hr, hs⟩

theorem _root_.KM.Sys.Run.opened {sv : Server} {clock : Int} {tr : List SEv} {s : Sys} (h : Sys.Run (Sys.new sv clock) tr s) : Opened s := by
  have i0 := Sys.inv_new sv clock
  have o0 : Opened (Sys.new sv clock) := fun g r h => by simp [Sys.new] at h
  generalize Sys.new sv clock = s0 at h i0 o0
  induction h with
  | nil => exact o0
  | cons h _ ih => exact ih (h.inv i0) (step_opened h i0 o0)

/-- **C74**: once the mock is up and no RequestStop is under way, it stays up until RequestStop or Restart is called: whatever else is called, FinishRequests and
WaitForTermination included, whatever clients do, and also when the parent context is cancelled, the accept loop goes on accepting from the open listener, and the mock counts as
started. (The call that a step names has a meaning only when the caller is idle, `Sys.apiStep`.) -/
theorem C74_stays_up {g : Nat} {s s' : Sys} {tr : List SEv} (hr : s.Reachable) (hu : Up g s) (hn : NoStop s) (h : Sys.Run s tr s')
    (he : ∀ e ∈ tr, ∀ i, e ≠ .life (.api i .requestStop) ∧ e ≠ .life (.api i .restart)) :
    Up g s' ∧ s'.started = true ∧ s'.listener = some g := by
  obtain ⟨sv, clock, t0, h0⟩ := hr
  have key : Up g s' ∧ NoStop s' := by
    have hi : s.Inv := h0.whole.1
    clear h0
    induction h with
    | nil => exact ⟨hu, hn⟩
    | cons h _ ih =>
      exact ih (hu.step h hn) (hn.step h hi hu (he _ List.mem_cons_self)) (fun e hx => he e (List.mem_cons_of_mem _ hx)) (h.inv hi)
  have hrun := h0.append h
  have hi := hrun.whole.1
  obtain ⟨r, h1, h2⟩ := key.1.serving
  have h3 : r.pc.running = true := by revert h2; cases r.pc <;> simp [RunPc.serving, RunPc.running]
  refine ⟨key.1, ?_, (hrun.opened g r h1 (by revert h2; cases r.pc <;> simp [RunPc.serving, opened]) h3).resolve_right key.1.open_⟩
  have := List.countP_pos_iff (p := fun (r : RunG) => r.pc.running) (l := s'.runs) |>.2 ⟨r, List.mem_of_getElem? h1, h3⟩
  have h4 := hi.started
  cases hs : s'.started
  · rw [hs, if_neg (by decide)] at h4; omega
  · rfl

/-! ### A case that meets the hypotheses -/

theorem solo_run {s s' : Sys} {tr : List SEv} (h : Sys.Run s tr s') (ht : ∀ e ∈ tr, solo e = true) (hi : ∀ j, s.api (j + 1) = .idle) (j : Nat) : s'.api (j + 1) = .idle := by
  induction h with
  | nil => exact hi j
  | cons h _ ih =>
    refine ih (fun e he => ht e (List.mem_cons_of_mem _ he)) fun j => ?_
    have hw := step_api_other h (i := j + 1) fun e => by have := ht _ List.mem_cons_self; unfold solo at this; rw [e] at this; cases this
    rw [hi j] at hw
    exact hw.awake rfl rfl

/-- A started mock with one connection. -/
def inService : Sys := stateAfter (starts 0 ++ opens 0 ++ accepts 0) (Sys.new ⟨9092, []⟩ 0)

theorem inService_run : Sys.Run (Sys.new ⟨9092, []⟩ 0) (eventsOf (starts 0 ++ opens 0 ++ accepts 0) (Sys.new ⟨9092, []⟩ 0)) inService := stateAfter_run _ _

/-- FinishRequests; the connection ends, another one is accepted and closed at once; WaitForTermination, which waits. -/
def finishAndWait : List Pick := caller 0 .finishRequests 2 ++ windsUp 0 ++ closesUp 0 ++ [.run 0, .run 0] ++ caller 0 .waitForTermination 2

def isStopCall : SEv → Bool
  | .life (.api _ .requestStop) | .life (.api _ .restart) => true
  | _ => false

set_option maxRecDepth 100000 in
/-- The hypotheses of `C74_stays_up` can be met. -/
example : ∃ tr s', inService.Reachable ∧ Up 0 inService ∧ NoStop inService ∧ Sys.Run inService tr s' ∧
    (∀ e ∈ tr, ∀ i, e ≠ .life (.api i .requestStop) ∧ e ≠ .life (.api i .restart)) ∧
    s'.isDone 0 = true ∧ s'.api 0 = .wait .asleep false ∧ s'.conns.length = 1 ∧ s'.clients = [] ∧ s'.runs = [⟨.accept, 1⟩] := by
  refine ⟨eventsOf finishAndWait inService, stateAfter finishAndWait inService, ⟨_, _, _, inService_run⟩, ⟨⟨⟨.accept, 1⟩, rfl, rfl⟩, (by decide +kernel : (0 : Nat) ∉ inService.closes)⟩, ?_,
    stateAfter_run _ _, ?_, by decide +kernel, rfl, rfl, rfl, rfl⟩
  · intro i k b
    cases i with
    | zero => rw [show inService.api 0 = .idle from rfl]; nofun
    | succ i =>
      rw [solo_run inService_run (List.all_eq_true.1 (by decide +kernel)) (fun _ => rfl)]; nofun
  · intro e he i
    have := List.all_eq_true.1 (show (eventsOf finishAndWait inService).all (fun e => !isStopCall e) = true by decide +kernel) e he
    constructor <;> rintro rfl <;> cases this

set_option maxRecDepth 100000 in
/-- The hypotheses of `C74_finish` can be met: another caller stops the mock meanwhile. -/
example : ∃ tr s1 s2 s3, inService.api 1 = .idle ∧ Sys.Step inService (.life (.api 1 .finishRequests)) s1 ∧ Sys.Run s1 tr s2 ∧ (∀ e ∈ tr, e.of ≠ some (.api 1)) ∧
    Sys.Step s2 (.life (.api 1 .finishRequests)) s3 ∧ s2.ctx = some 0 ∧ tr ≠ [] := by
  refine ⟨eventsOf (caller 0 .requestStop 5) (inService.setApi 1 .finish), _, stateAfter (caller 0 .requestStop 5) (inService.setApi 1 .finish), _, rfl, .life rfl, stateAfter_run _ _, ?_, .life rfl, rfl, ?_⟩
  · intro e he
    have := List.all_eq_true.1 (show (eventsOf (caller 0 .requestStop 5) (inService.setApi 1 .finish)).all (fun e => decide (e.of ≠ some (.api 1))) = true by decide +kernel) e he
    exact of_decide_eq_true this
  · intro h
    have : (eventsOf (caller 0 .requestStop 5) (inService.setApi 1 .finish)).length = 5 := by decide +kernel
    rw [h] at this; cases this

end Props
end KM
