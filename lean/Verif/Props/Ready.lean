import Verif.Props.Finish
/-
C89: when clients can connect. Restart returns with the listener open; Start returns before it is.
-/
namespace KM
namespace Props

/-- The socket of accept loop `g` is open: `net.Listen` has returned and nobody has closed the listener. Until then, and after that, the operating system refuses clients. -/
def Listening (g : Nat) (s : Sys) : Prop := (∃ r, s.runs[g]? = some r ∧ r.pc ≠ .listen) ∧ g ∉ s.closes

/-- Nobody but caller `i` is in RequestStop, called by a test or as part of WaitForTermination or Restart. -/
def OthersNoStop (i : Nat) (s : Sys) : Prop := ∀ j, j ≠ i → ∀ k b, s.api j ≠ .stop k b

/-- A call of caller `i`, from the call to its return without a panic; all the while nobody else is in RequestStop. -/
structure Undisturbed (i : Nat) (c : Call) (s0 s : Sys) : Prop where
  reach : s0.Reachable
  idle : s0.api i = .idle
  runs : ∃ s1 s2 tr e, Sys.Step s0 (.life (.api i c)) s1 ∧ RunIn (fun s => OthersNoStop i s ∧ busy (s.api i)) s1 tr s2 ∧ Sys.Step s2 e s
  returned : s.api i = .idle

/-- Accept loop `g` is on its way to accept connections, or accepts them; its listener has not been closed. -/
structure Rising (g : Nat) (s : Sys) : Prop where
  pc : ∃ r, s.runs[g]? = some r ∧ (r.pc.initializing = true ∨ r.pc.serving = true)
  open_ : g ∉ s.closes

theorem Up.listening {g : Nat} {s : Sys} (h : Up g s) : Listening g s := by
  obtain ⟨r, h1, h2⟩ := h.serving
  exact ⟨⟨r, h1, by rintro e; rw [e] at h2; cases h2⟩, h.open_⟩

theorem initializing_next {pc pc' : RunPc} (hs : pc.initializing = true) (h : pc' ∈ pc.next) : pc'.initializing = true ∨ pc'.serving = true := by
  cases pc <;> simp only [RunPc.next, List.mem_cons, List.not_mem_nil, or_false] at h <;> first | (cases hs; done) | (subst h; first | exact .inl rfl | exact .inr rfl)

theorem Rising.step {g : Nat} {s s' : Sys} {e : SEv} (h : Sys.Step s e s') (hu : Rising g s) (hn : NoStop s) : Rising g s' := by
  obtain ⟨r, hr, hs⟩ := hu.pc
  by_cases hv : r.pc.serving = true
  · have hu' := Up.step h (g := g) ⟨⟨r, hr, hv⟩, hu.open_⟩ hn
    obtain ⟨r', h1, h2⟩ := hu'.serving
    exact ⟨⟨r', h1, .inr h2⟩, hu'.open_⟩
  have hs := hs.resolve_right hv
  have hc : s'.closes = s.closes := by
    rcases step_listener' h with ⟨_, e2, _⟩ | ⟨_, e2, _⟩ | ⟨_, ⟨i, b, e0⟩, _⟩ | ⟨_, _, _, _, _, _, e2⟩
    · exact e2
    · exact e2
    · exact absurd e0 (hn i _ _)
    · exact e2
  refine ⟨?_, by rw [hc]; exact hu.open_⟩
  have hlt := (List.getElem?_eq_some_iff.1 hr).1
  rcases step_runs h with e1 | ⟨g', r1, r2, h1, h2, e1⟩ | e1
  · exact ⟨r, by rw [e1]; exact hr, .inl hs⟩
  · by_cases eq : g' = g
    · subst eq
      rw [hr] at h1; cases h1
      exact ⟨r2, by rw [e1]; exact List.getElem?_set_self hlt, initializing_next hs h2.1⟩
    · exact ⟨r, by rw [e1, List.getElem?_set_ne eq]; exact hr, .inl hs⟩
  · exact ⟨r, by rw [e1, List.getElem?_append_left hlt]; exact hr, .inl hs⟩

theorem Rising.up {g : Nat} {s : Sys} (h : Rising g s) (hi : s.Inv) (h0 : s.init = 0) : Up g s := by
  obtain ⟨r, h1, h2⟩ := h.pc
  refine ⟨⟨r, h1, h2.resolve_left fun hx => ?_⟩, h.open_⟩
  have := List.countP_pos_iff (p := fun (r : RunG) => r.pc.initializing) (l := s.runs) |>.2 ⟨r, List.mem_of_getElem? h1, hx⟩
  have := hi.init
  omega

/-- In a call of Start or Restart, after line 63 has started the accept loop. -/
def spawned : ApiPc → Bool
  | .start .unlock _ | .restartInit _ => true
  | _ => false

/-- In Restart. -/
def inRestart : ApiPc → Bool
  | .stop _ .restart | .wait _ true | .stop _ .restartWait | .start _ true | .restartInit _ => true
  | _ => false

/-- In Start, called by a test. -/
def inPlainStart : ApiPc → Bool
  | .start _ false => true
  | _ => false

theorem spawned_noStop {i : Nat} {s : Sys} (h : spawned (s.api i) = true) (ho : OthersNoStop i s) : NoStop s := by
  intro j k b hj
  by_cases e : j = i
  · subst e; rw [hj] at h; cases h
  · exact ho j e k b hj

theorem woken_kept {f : ApiPc → Bool} (hf : f = spawned ∨ f = inRestart ∨ f = inPlainStart) {pc pc' : ApiPc} (h : Woken pc pc') : f pc' = f pc := by
  cases h
  · rfl
  · unfold ApiPc.wakeWg; split
    · next r => rcases hf with rfl | rfl | rfl <;> cases r <;> rfl
    · rfl
  · unfold ApiPc.wakeInit; split
    · next b => rcases hf with rfl | rfl | rfl <;> cases b <;> rfl
    · rcases hf with rfl | rfl | rfl <;> rfl
    · rfl

theorem step_spawned {s s' : Sys} {e : SEv} (h : Sys.Step s e s') (hc : ListenerInv s) {i : Nat} (ho : OthersNoStop i s)
    (hr : spawned (s.api i) = true → ∃ g, Rising g s) (hs : spawned (s'.api i) = true) : ∃ g, Rising g s' := by
  by_cases hb : spawned (s.api i) = true
  · obtain ⟨g, hg⟩ := hr hb
    exact ⟨g, hg.step h (spawned_noStop hb ho)⟩
  · rcases step_api h i with ⟨h1, h2⟩ | ⟨_, h2⟩
    · have hp : ∃ r, s.api i = .start .spawn r := by
        revert h2 hs hb
        generalize s.api i = pc
        generalize s'.api i = pc'
        intro hs hb h2
        cases h2 <;> first | (cases hs; done) | exact absurd rfl hb | exact ⟨_, rfl⟩ | skip
        · next c => cases c <;> cases hs
        all_goals cases ‹StopBy› <;> cases hs
      obtain ⟨r, hp⟩ := hp
      rcases step_by_api h h1 with ⟨c, hn⟩ | ⟨_, _, _, _, h3, _⟩
      · simp only [Sys.apiStep, hp, Sys.startStep] at hn
        cases hn
        refine ⟨s.runs.length, ⟨⟨⟨.listen, 0⟩, by simp [Sys.setApi], .inl rfl⟩, fun hx => ?_⟩⟩
        obtain ⟨r, h4, _⟩ := hc.closed _ hx
        simp at h4
      · rw [hp] at h3; cases h3
    · rw [woken_kept (.inl rfl) h2] at hs; exact absurd hs hb

/-- The run of the caller inside the call: `f` tells where it can be, and from where it returns. -/
theorem call_run {i : Nat} {f : ApiPc → Bool} {s1 s2 : Sys} {tr : List SEv} (h : RunIn (fun s => OthersNoStop i s ∧ busy (s.api i)) s1 tr s2)
    (hc : ListenerInv s1) (hi : s1.Inv) (hf : f = inRestart ∨ f = inPlainStart) (h0 : f (s1.api i) = true) (h1 : spawned (s1.api i) = true → ∃ g, Rising g s1) :
    s2.Inv ∧ OthersNoStop i s2 ∧ f (s2.api i) = true ∧ (spawned (s2.api i) = true → ∃ g, Rising g s2) := by
  induction h with
  | nil h => exact ⟨hi, h.1, h0, h1⟩
  | @cons s s1 s2 e es hp h hs ih =>
    refine ih (step_listenerInv h hc) (h.inv hi) ?_ (step_spawned h hc hp.1 h1)
    have hb : busy (s1.api i) := by cases hs with
      | nil h => exact h.2
      | cons h => exact h.2
    rcases step_api h i with ⟨_, h2⟩ | ⟨_, h2⟩
    · revert h0 hb h2
      generalize s.api i = pc
      generalize s1.api i = pc'
      clear ih h1 hp
      intro h0 hb h2
      rcases hf with rfl | rfl
      · cases h2 <;> first | (cases h0; done) | rfl | exact absurd rfl (hb.2 _) | exact absurd rfl hb.1 | exact h0 | (cases ‹Bool› <;> first | rfl | (cases h0; done)) | (cases ‹StopBy› <;> first | rfl | (cases h0; done))
      · cases h2 <;> first | (cases h0; done) | rfl | exact absurd rfl (hb.2 _) | exact absurd rfl hb.1 | exact h0 | (cases ‹Bool› <;> first | rfl | (cases h0; done))
    · rw [woken_kept (.inr hf) h2]; exact h0

theorem Undisturbed.last {i : Nat} {c : Call} {s0 s : Sys} (h : Undisturbed i c s0 s) {f : ApiPc → Bool} (hf : f = inRestart ∨ f = inPlainStart) (hc : f c.entry = true) (hn : spawned c.entry = false) :
    ∃ s2 e, s2.Inv ∧ OthersNoStop i s2 ∧ f (s2.api i) = true ∧ (spawned (s2.api i) = true → ∃ g, Rising g s2) ∧ Sys.Step s2 e s ∧ ApiNext s2 (s2.api i) .idle := by
  obtain ⟨s1, s2, tr, e, h1, h2, h3⟩ := h.runs
  have hl := step_listenerInv h1 (reachable_listenerInv h.reach)
  have hi := h1.inv h.reach.inv
  have he : s1.api i = c.entry := called_at h1 h.idle
  obtain ⟨a, b, c, d⟩ := call_run h2 hl hi hf (by rw [he]; exact hc) (fun hx => by rw [he, hn] at hx; cases hx)
  refine ⟨s2, e, a, b, c, d, h3, ?_⟩
  rcases step_api h3 i with ⟨_, h4⟩ | ⟨_, h4⟩
  · rw [h.returned] at h4; exact h4
  · exfalso
    have := woken_kept (.inr hf) h4
    rw [h.returned, c] at this
    rcases hf with rfl | rfl <;> cases this

/-- **C89**, partial: when Restart has returned, and nobody else was in RequestStop during the call, the listener is open and the accept loop takes connections from it. -/
theorem C89_restart_partial {i : Nat} {s0 s : Sys} (h : Undisturbed i .restart s0 s) : ∃ g, Up g s ∧ Listening g s := by
  obtain ⟨s2, e, hi, ho, hf, hr, h3, hl⟩ := h.last (.inl rfl) rfl rfl
  generalize hp : s2.api i = pc at hf hl
  have hx : spawned (s2.api i) = true ∧ s2.init = 0 := by
    rw [hp]
    revert hf hl
    generalize hq : ApiPc.idle = q
    intro hf hl
    cases hl <;> first | (cases hf; done) | (cases hq; done) | skip
    · next b _ => cases b <;> first | (cases hf; done) | cases hq
    · next b _ => cases b <;> first | (cases hf; done) | cases hq
    · next b _ => cases b <;> first | (cases hf; done) | cases hq
    · next h0 => exact ⟨rfl, h0⟩
  obtain ⟨g, hg⟩ := hr hx.1
  have hu := (hg.up hi hx.2).step h3 (spawned_noStop hx.1 ho)
  exact ⟨g, hu, hu.listening⟩

/-- When Start has returned, the accept loop has been started. -/
theorem start_rising {i : Nat} {s0 s : Sys} (h : Undisturbed i .start s0 s) : ∃ g, Rising g s := by
  obtain ⟨s2, e, hi, ho, hf, hr, h3, hl⟩ := h.last (.inr rfl) rfl rfl
  generalize hp : s2.api i = pc at hf hl
  have hx : spawned (s2.api i) = true := by
    rw [hp]
    revert hf hl
    generalize hq : ApiPc.idle = q
    intro hf hl
    cases hl <;> first | (cases hf; done) | (cases hq; done) | rfl
  obtain ⟨g, hg⟩ := hr hx
  exact ⟨g, hg.step h3 (spawned_noStop hx ho)⟩

variable {sv : Server} {clock : Int} {ss : Nat → Sys} {es : Nat → SEv}

theorem rising_up (h : KM.Endless sv clock ss es) {g n : Nat} (hg : Rising g (ss n)) (hn : ∀ m, n ≤ m → NoStop (ss m)) : ∃ m, n ≤ m ∧ ∀ j, m ≤ j → Up g (ss j) := by
  obtain ⟨m, hm, hu⟩ : ∃ m, n ≤ m ∧ Up g (ss m) := by
    obtain ⟨r, h1, h2⟩ := hg.pc
    generalize hk : r.pc.rank = k
    induction k using Nat.strongRecOn generalizing n r with
    | ind k ih =>
      by_cases hv : r.pc.serving = true
      · exact ⟨n, Nat.le_refl n, ⟨⟨r, h1, hv⟩, hg.open_⟩⟩
      have hini := h2.resolve_right hv
      obtain ⟨m, m1, m2, m3⟩ := h.first_act (.run g) n fun hno m hm => ⟨m, Nat.le_refl m, r, h.run_stays hm h1 fun j a _ => hno j a,
        by revert hini; cases r.pc <;> simp [RunPc.initializing, RunPc.ready]⟩
      have hrm := h.run_stays m1 h1 m3
      have hup : ∀ j, n ≤ j → Rising g (ss j) := by
        intro j hj
        induction hj with
        | refl => exact hg
        | @step j hj ih => exact ih.step (h.step j) (hn j hj)
      obtain ⟨r1, r2, e1, e2, e3, _⟩ := step_run_self (h.step m) m2
      rw [hrm] at e1; cases e1
      obtain ⟨r3, e4, e5⟩ := (hup (m + 1) (by omega)).pc
      rw [e3] at e4; cases e4
      obtain ⟨m', q1, q2⟩ := ih r2.pc.rank (by
        rw [← hk]
        have := e2.1
        revert this hini
        cases r.pc <;> simp only [RunPc.next, List.mem_cons, List.not_mem_nil, or_false] <;> intro hini hx <;> first | (cases hini; done) | (rw [hx]; decide))
        (hup (m + 1) (by omega)) (fun m' hm' => hn m' (by omega)) r2 e3 e5 rfl
      exact ⟨m', by omega, q2⟩
  refine ⟨m, hm, fun j hj => ?_⟩
  induction hj with
  | refl => exact hu
  | @step j hj ih => exact ih.step (h.step j) (hn j (Nat.le_trans hm hj))

/-- **C89**, partial: after Start has returned without interference of a RequestStop, the listener will be open and the accept loop will take connections from it, for as long as nobody
stops the mock; with a fair scheduler. -/
theorem C89_start_partial (h : KM.Endless sv clock ss es) {i n m : Nat} (hu : Undisturbed i .start (ss n) (ss m)) (hn : ∀ j, m ≤ j → NoStop (ss j)) :
    ∃ g m', m ≤ m' ∧ ∀ j, m' ≤ j → Up g (ss j) ∧ Listening g (ss j) := by
  obtain ⟨g, hg⟩ := start_rising hu
  obtain ⟨m', h1, h2⟩ := rising_up h hg hn
  exact ⟨g, m', h1, fun j hj => ⟨h2 j hj, (h2 j hj).listening⟩⟩

/-! ### Start returns too early -/

def isBusy : ApiPc → Bool
  | .idle | .panicked _ => false
  | _ => true

theorem isBusy_iff {pc : ApiPc} (h : isBusy pc = true) : busy pc := by
  cases pc <;> first | (cases h; done) | exact ⟨nofun, nofun⟩

/-- Only caller 0 acts, if any caller, and it is in a call all the while. -/
def busyPlay : List Pick → Sys → Bool
  | [], s => isBusy (s.api 0)
  | p :: ps, s => isBusy (s.api 0) && match s.pick p with
    | some (e, s') => solo e && busyPlay ps s'
    | none => false

theorem busyPlay_run {ps : List Pick} {s : Sys} (h : busyPlay ps s = true) (hi : ∀ j, s.api (j + 1) = .idle) :
    ∃ tr s', Sys.play ps s = some (tr, s') ∧ RunIn (fun s => OthersNoStop 0 s ∧ busy (s.api 0)) s tr s' := by
  have ho : ∀ {s : Sys}, (∀ j, s.api (j + 1) = .idle) → OthersNoStop 0 s := by
    intro s hi j hj k b hk
    cases j with
    | zero => exact hj rfl
    | succ j => rw [hi j] at hk; cases hk
  induction ps generalizing s with
  | nil => exact ⟨[], s, rfl, .nil ⟨ho hi, isBusy_iff h⟩⟩
  | cons p ps ih =>
    unfold busyPlay at h
    rw [Bool.and_eq_true] at h
    obtain ⟨h1, h2⟩ := h
    split at h2
    · next e s1 hp =>
      rw [Bool.and_eq_true] at h2
      have hst := Sys.pick_sound hp
      have hi1 := solo_run (.cons hst (.nil _)) (fun e he => by cases he with | head => exact h2.1 | tail _ h => cases h) hi
      obtain ⟨tr, s', h3, h4⟩ := ih h2.2 hi1
      exact ⟨e :: tr, s', by simp only [Sys.play, hp, h3], .cons ⟨ho hi, isBusy_iff h1⟩ hst h4⟩
    · cases h2

/-- A call that only caller 0 makes: the call `c` after `ps0`, its steps `ps` but for the last, the last step `p`. -/
theorem undisturbed_play {c : Call} {ps0 ps : List Pick} {p : Pick} (h0 : (eventsOf ps0 (Sys.new ⟨9092, []⟩ 0)).all solo = true)
    (hi : (stateAfter ps0 (Sys.new ⟨9092, []⟩ 0)).api 0 = .idle) {s1 : Sys} (h1 : (stateAfter ps0 (Sys.new ⟨9092, []⟩ 0)).next (.api 0 c) = .ok s1)
    (h2 : busyPlay ps s1 = true) {e : SEv} {s : Sys} (h3 : (stateAfter ps s1).pick p = some (e, s)) (h4 : s.api 0 = .idle) :
    Undisturbed 0 c (stateAfter ps0 (Sys.new ⟨9092, []⟩ 0)) s := by
  have hr := stateAfter_run ps0 (Sys.new ⟨9092, []⟩ 0)
  have hid := solo_run hr (List.all_eq_true.1 h0) fun _ => rfl
  have hs1 : Sys.Step _ (.life (.api 0 c)) s1 := .life h1
  have hid1 := solo_run (.cons hs1 (.nil _)) (fun e he => by cases he with | head => rfl | tail _ h => cases h) hid
  obtain ⟨tr, s2, hp, h5⟩ := busyPlay_run h2 hid1
  have : stateAfter ps s1 = s2 := by unfold stateAfter; rw [hp]; rfl
  rw [this] at h3
  exact ⟨⟨_, _, _, hr⟩, hi, ⟨s1, s2, tr, e, hs1, h5, Sys.pick_sound h3⟩, h4⟩

/-- The state in which Start has returned and the accept loop has not yet done anything. -/
def justStarted : Sys := stateAfter (starts 0) (Sys.new ⟨9092, []⟩ 0)

theorem justStarted_undisturbed : Undisturbed 0 .start (Sys.new ⟨9092, []⟩ 0) justStarted :=
  undisturbed_play (ps0 := []) (ps := caller 0 .start 8) (p := .api 0 .start) rfl rfl rfl (by decide +kernel) (e := _) rfl rfl

theorem justStarted_deaf (g : Nat) : ¬ Listening g justStarted := by
  rintro ⟨⟨r, h1, h2⟩, _⟩
  rw [show justStarted.runs = [⟨.listen, 0⟩] from rfl] at h1
  cases g with
  | zero => cases h1; exact h2 rfl
  | succ => cases h1

/-- **C89** is false for Start: it can return while nobody listens at the port. A client that connects then is refused. -/
theorem C89_false : ∃ s0 s, Undisturbed 0 .start s0 s ∧ ∀ g, ¬ Listening g s := ⟨_, _, justStarted_undisturbed, justStarted_deaf⟩

/-! ### Cases that meet the hypotheses -/

/-- Restart of a mock that has a connection, from the call until Restart waits for the connection; then until it waits for the new accept loop. -/
def restartSteps : List Pick := caller 0 .restart 8 ++ windsUp 0 ++ closesUp 0 ++ List.replicate 4 (.run 0) ++ caller 0 .restart 12 ++ opens 1

set_option maxRecDepth 100000 in
/-- The hypotheses of `C89_restart_partial` can be met. -/
example : ∃ s0 s, Undisturbed 0 .restart s0 s ∧ s0.conns.length = 1 ∧ s.runs = [⟨.ended, 1⟩, ⟨.accept, 0⟩] ∧ s.closes = [0] :=
  ⟨_, _, undisturbed_play (ps0 := starts 0 ++ opens 0 ++ accepts 0) (ps := restartSteps) (p := .api 0 .restart) (by decide +kernel) rfl rfl (by decide +kernel) (e := _) rfl rfl, rfl, rfl, rfl⟩

set_option maxRecDepth 100000 in
/-- The hypotheses of `C89_start_partial` can be met: Start, the accept loop opens the listener and waits for a connection, time passes. -/
example : ∃ ss es n m, KM.Endless ⟨9092, []⟩ 0 ss es ∧ Undisturbed 0 .start (ss n) (ss m) ∧ (∀ j, m ≤ j → NoStop (ss j)) ∧ ∀ g, ¬ Listening g (ss m) := by
  let s3 := stateAfter (opens 0) justStarted
  let ts : Nat → Sys := fun n => Nat.rec s3 (fun _ (s : Sys) => { s with clock := s.clock + (1 : Nat) }) n
  have ht : ∀ n, (ts n).api = s3.api ∧ (ts n).runs = s3.runs ∧ (ts n).conns = s3.conns ∧ (ts n).closes = s3.closes := by
    intro n
    induction n with
    | zero => exact ⟨rfl, rfl, rfl, rfl⟩
    | succ n ih => exact ih
  have r1 : Sys.Run (Sys.new ⟨9092, []⟩ 0) _ justStarted := stateAfter_run (starts 0) _
  have r2 : Sys.Run justStarted _ s3 := stateAfter_run (opens 0) _
  obtain ⟨ss', es', a1, a2, a3, a4, a5, a6⟩ := prepend r2 ts (fun _ => .tick 1) rfl fun n => .tick 1
  obtain ⟨ss, es, b1, b2, b3, b4, b5, b6⟩ := prepend r1 ss' es' a1 a2
  have l1 : (eventsOf (starts 0) (Sys.new ⟨9092, []⟩ 0)).length = 10 := by decide +kernel
  have l2 : (eventsOf (opens 0) justStarted).length = 3 := by decide +kernel
  rw [l1] at b3 b4
  rw [l2] at a3 a4
  have q1 : (eventsOf (starts 0) (Sys.new ⟨9092, []⟩ 0)).all solo = true := by decide +kernel
  have q2 : (eventsOf (opens 0) justStarted).all solo = true := by decide +kernel
  have q3 : (eventsOf (opens 0) justStarted).all (fun e => decide (e.of ≠ some (.api 0))) = true := by decide +kernel
  have hsolo : ∀ n, solo (es n) = true := by
    intro n
    rcases b5 n with h | ⟨m, h⟩
    · exact List.all_eq_true.1 q1 _ h
    · rw [h]
      rcases a5 m with h | ⟨m, h⟩
      · exact List.all_eq_true.1 q2 _ h
      · rw [h]; rfl
  have others := solo_idle b1 b2 hsolo
  have tail : ∀ n, 13 ≤ n → ∃ m, ss n = ts m := fun n hn => ⟨n - 13, by rw [← a3, ← b3]; congr 1; omega⟩
  have s10 : ss 10 = justStarted := by rw [show 10 = 10 + 0 from rfl, b3, a1]
  refine ⟨ss, es, 0, 10, ⟨b1, b2, fun t _ hr n => ?_⟩, by rw [s10, b1]; exact justStarted_undisturbed, fun j hj => ?_, by rw [s10]; exact justStarted_deaf⟩
  · exfalso
    obtain ⟨m, m1, m2⟩ := hr 13
    obtain ⟨m', e1⟩ := tail m m1
    obtain ⟨x1, x2, x3, x4⟩ := ht m'
    cases t with
    | api i =>
      have m2 : ((ss m).api i).ready (ss m) := m2
      cases i with
      | zero => rw [e1, x1, show s3.api 0 = .idle from rfl] at m2; exact m2
      | succ i => rw [others] at m2; exact m2
    | run g =>
      obtain ⟨r, h1, h2⟩ := m2
      rw [e1, x2, show s3.runs = [⟨.accept, 0⟩] from rfl] at h1
      cases g with
      | zero =>
        cases h1
        have h2 : 0 ∈ (ss m).closes := h2
        rw [e1, x4, show s3.closes = [] from rfl] at h2
        cases h2
      | succ => cases h1
    | conn c =>
      obtain ⟨k, h1, _⟩ := m2
      rw [e1, x3, show s3.conns = [] from rfl] at h1
      cases h1
  · intro i k b hk
    cases i with
    | succ i => rw [others] at hk; cases hk
    | zero =>
      have : (ss j).api 0 = .idle := by
        clear hk
        induction hj with
        | refl => rw [s10]; rfl
        | @step n hn ih =>
          have hw := step_api_other (b2 n) (i := 0) fun e => by
            have := b4 (n - 10)
            rw [show 10 + (n - 10) = n from Nat.add_sub_cancel' hn] at this
            rw [this] at e
            rcases a5 (n - 10) with h | ⟨m, h⟩
            · exact of_decide_eq_true (List.all_eq_true.1 q3 _ h) e
            · rw [h] at e; cases e
          rw [ih] at hw
          exact hw.awake rfl rfl
      rw [this] at hk; cases hk

end Props
end KM
