import Verif.Live
import Verif.Room
import Verif.Props.WindDown
/-
C68, C69: the functions that start and stop the mock return, and do not panic.
-/
namespace KM.Props

variable {sv : Server} {clock : Int} {ss : Nat → Sys} {es : Nat → SEv}

/-! ### Calls and returns -/

/-- At step `n` goroutine `i` calls an exported function. -/
def CallsAt (ss : Nat → Sys) (es : Nat → SEv) (i : Nat) (c : Call) (n : Nat) : Prop := (ss n).api i = .idle ∧ es n = .life (.api i c)

/-- In an exported function, not panicking. -/
def busy (pc : ApiPc) : Prop := pc ≠ .idle ∧ ∀ why, pc ≠ .panicked why

/-- The function that goroutine `i` calls at step `n` has returned at time `m`. -/
def ReturnsAt (ss : Nat → Sys) (i n m : Nat) : Prop := n < m ∧ (ss m).api i = .idle ∧ ∀ j, n < j → j < m → busy ((ss j).api i)

/-- The function that goroutine `i` calls at step `n` panics. -/
def PanicsAt (ss : Nat → Sys) (i n m : Nat) (why : Panic) : Prop := n < m ∧ (ss m).api i = .panicked why ∧ ∀ j, n < j → j < m → busy ((ss j).api i)

theorem life_busy {pc : ApiPc} (h : pc.life = true) : busy pc := by
  refine ⟨?_, fun why => ?_⟩ <;> rintro rfl <;> cases h

theorem called_at {s s' : Sys} {i : Nat} {c : Call} (h : Sys.Step s (.life (.api i c)) s') (hp : s.api i = .idle) : s'.api i = c.entry := by
  cases h with
  | life hn =>
    simp only [Sys.next, Sys.apiStep, hp, Out.ok.injEq] at hn
    rw [← hn]; exact if_pos rfl

theorem CallsAt.entry (h : Orderly sv clock ss es F) {i n : Nat} {c : Call} (hc : CallsAt ss es i c n) : (ss (n + 1)).api i = c.entry := by
  have := h.step n
  rw [hc.2] at this
  exact called_at this hc.1

/-- **C68**, RequestStop: it returns, and a stop is then requested. -/
theorem C68_requestStop (h : Orderly sv clock ss es F) {i n : Nat} (hc : CallsAt ss es i .requestStop n) (hL : Lively F ss := by first | exact .all | assumption) : ∃ m, ReturnsAt ss i n m ∧ (ss m).stopped = true := by
  obtain ⟨m, a1, a2, a3, a4⟩ := h.stop_next (k := .swap) (b := .test) (hc.entry h)
  refine ⟨m, ⟨by omega, a2, fun j j1 j2 => ?_⟩, a3⟩
  obtain ⟨k, hk⟩ := a4 j j1 j2
  exact life_busy (by rw [hk]; rfl)

/-- **C68**, Start: it returns, or panics because the mock is started already. -/
theorem C68_start (h : Orderly sv clock ss es) {i n : Nat} (hc : CallsAt ss es i .start n) : ∃ m, ReturnsAt ss i n m ∨ PanicsAt ss i n m .startTwice := by
  obtain ⟨m, a1, a2, a3⟩ := h.start_next (k := .lock) (r := false) (L := 0) (hc.entry h) (Nat.zero_le _) (.inl rfl)
  have hb : ∀ j, n < j → j < m → busy ((ss j).api i) := fun j j1 j2 => by
    obtain ⟨k, hk⟩ := a3 j j1 j2
    exact life_busy (by rw [hk]; rfl)
  rcases a2 with ⟨_, a2⟩ | ⟨a2, _⟩
  · exact ⟨m, .inr ⟨by omega, a2, hb⟩⟩
  · exact ⟨m, .inl ⟨by omega, a2, hb⟩⟩

/-- In WaitForTermination. -/
def waiting (pc : ApiPc) : Prop := (∃ k, pc = .wait k false) ∨ ∃ k, pc = .stop k .wait

theorem waiting_life {pc : ApiPc} (h : waiting pc) : pc.life = true := by
  rcases h with ⟨_, rfl⟩ | ⟨_, rfl⟩ <;> rfl

theorem waiting_step (h : Orderly sv clock ss es) {i n : Nat} (hw : waiting ((ss n).api i)) : waiting ((ss (n + 1)).api i) ∨ (ss (n + 1)).api i = .idle := by
  have hr := (h.inv (n + 1)).apart.reused i
  have hc : (ss n).api i = .stop .cancel .wait → (ss n).ctx ≠ none := fun e => (h.inv n).apart.tearing i (by rw [e]; rfl)
  rcases step_api (h.step n) i with ⟨_, hn⟩ | ⟨_, hn⟩
  · generalize (ss n).api i = pc at hw hn hc
    generalize (ss (n + 1)).api i = pc' at hn hr
    rcases hw with ⟨k, rfl⟩ | ⟨k, rfl⟩
    · cases hn with
      | waitZero => exact .inl (.inr ⟨_, rfl⟩)
      | waitSleep => exact .inl (.inl ⟨_, rfl⟩)
      | waitReused => exact absurd rfl hr
    · cases hn with
      | again | unstarted | cancel => exact .inr rfl
      | initReused => exact absurd rfl hr
      | cancelNil _ hz => exact absurd hz (hc rfl)
      | _ => exact .inl (.inr ⟨_, rfl⟩)
  · left
    generalize (ss n).api i = pc at hw hn
    generalize (ss (n + 1)).api i = pc' at hn
    cases hn with
    | not => exact hw
    | wg =>
      unfold ApiPc.wakeWg
      split
      · rcases hw with ⟨_, e⟩ | ⟨_, e⟩ <;> cases e
        exact .inl ⟨_, rfl⟩
      · exact hw
    | init =>
      unfold ApiPc.wakeInit
      split
      · rcases hw with ⟨_, e⟩ | ⟨_, e⟩ <;> cases e
        exact .inr ⟨_, rfl⟩
      · rcases hw with ⟨_, e⟩ | ⟨_, e⟩ <;> cases e
      · exact hw

theorem waiting_returns (h : Orderly sv clock ss es) (hf : ¬ Feeds ss es) {i n : Nat} (hw : waiting ((ss n).api i)) (hst : (ss n).stopped = true) :
    ∃ m, n < m ∧ (ss m).api i = .idle := by
  rcases hw with ⟨k, hk⟩ | ⟨k, hk⟩
  · obtain ⟨m, a1, a2, _⟩ := h.wait_next hf hk hst
    obtain ⟨m', b1, b2, _⟩ := h.stop_next (b := .wait) a2
    exact ⟨m', by omega, b2⟩
  · obtain ⟨m, b1, b2, _⟩ := h.stop_next hk
    exact ⟨m, b1, b2⟩

theorem first_return (h : Orderly sv clock ss es) {i n m : Nat} (hc : CallsAt ss es i .waitForTermination n) (hm : n < m) (hi : (ss m).api i = .idle) :
    ∃ m, ReturnsAt ss i n m := by
  obtain ⟨m, a, b, c⟩ := first_time (P := fun m => (ss m).api i = .idle) hm hi
  refine ⟨m, by omega, b, fun j j1 j2 => life_busy (waiting_life ?_)⟩
  clear b
  induction j with
  | zero => omega
  | succ j ih =>
    by_cases hj : j = n
    · subst hj; rw [hc.entry h]; exact .inl ⟨_, rfl⟩
    · rcases waiting_step h (ih (by omega) (by omega)) with e | e
      · exact e
      · exact absurd e (c (j + 1) (by omega) j2)

/-- **C68**, WaitForTermination: called when a stop has been requested, it returns.
Missing for the full statement: a Fetch whose limits have no room for the records of its partitions (`C68_false`). -/
theorem C68_stopped_partial (h : Orderly sv clock ss es) (hr : Roomy ss es) {i n : Nat} (hc : CallsAt ss es i .waitForTermination n) (hst : (ss n).stopped = true) :
    ∃ m, ReturnsAt ss i n m := by
  have hst' : (ss (n + 1)).stopped = true := by
    rcases (step_effects (h.step n)).stopped with e | ⟨_, _, _, _, e⟩ | ⟨j, r, e, _⟩
    · rw [e]; exact hst
    · exact e
    · exfalso
      have hij : j ≠ i := by rintro rfl; rw [hc.1] at e; cases e
      have hj : (ss (n + 1)).api j = (ss n).api j := by
        rcases step_api (h.step n) j with ⟨he, _⟩ | ⟨_, hw⟩
        · rw [hc.2] at he; exact absurd (Holder.api.inj (Option.some.inj he)).symm hij
        · exact hw.awake (by rw [e]; rfl) (by rw [e]; rfl)
      have := h.apart (n + 1) j i hij (by rw [hj, e]; rfl)
      rw [hc.entry h] at this; cases this
  obtain ⟨m, a, b⟩ := waiting_returns h (h.toEndless.not_feeds hr) (i := i) (n := n + 1) (by rw [hc.entry h]; exact .inl ⟨_, rfl⟩) hst'
  exact first_return h hc (by omega) b

/-- **C68**, WaitForTermination: it returns once RequestStop is called by another goroutine.
Missing for the full statement: a Fetch whose limits have no room for the records of its partitions (`C68_false`). -/
theorem C68_waitForTermination_partial (h : Orderly sv clock ss es) (hr : Roomy ss es) {i i' n n' : Nat} (hc : CallsAt ss es i .waitForTermination n) (hnn : n < n')
    (hc' : CallsAt ss es i' .requestStop n') : ∃ m, ReturnsAt ss i n m := by
  obtain ⟨M, ⟨a1, _, _⟩, a2⟩ := C68_requestStop h hc'
  by_cases hx : ∃ m, n < m ∧ m ≤ M ∧ (ss m).api i = .idle
  · obtain ⟨m, b1, _, b2⟩ := hx
    exact first_return h hc b1 b2
  · have hw : ∀ j, n < j → j ≤ M → waiting ((ss j).api i) := by
      intro j
      induction j with
      | zero => intro h; omega
      | succ j ih =>
        intro j1 j2
        by_cases hj : j = n
        · subst hj; rw [hc.entry h]; exact .inl ⟨_, rfl⟩
        · rcases waiting_step h (ih (by omega) (by omega)) with e | e
          · exact e
          · exact absurd ⟨j + 1, j1, j2, e⟩ hx
    obtain ⟨m, b1, b2⟩ := waiting_returns h (h.toEndless.not_feeds hr) (hw M (by omega) (Nat.le_refl _)) a2
    exact first_return h hc (by omega) b2

/-- **C68**, Restart: it returns; unless a stop was requested meanwhile, the mock then listens, on a listener opened since Restart was called.
Missing for the full statement: a Fetch whose limits have no room for the records of its partitions (`C68_false`). -/
theorem C68_restart_partial (h : Orderly sv clock ss es) (hr : Roomy ss es) {i n : Nat} (hc : CallsAt ss es i .restart n) :
    ∃ m, ReturnsAt ss i n m ∧ ((ss m).stopped = false → ∃ g, (ss n).runs.length ≤ g ∧ (ss m).listener = some g ∧ g ∉ (ss m).closes) := by
  obtain ⟨m, a1, a2, a3, a4⟩ := h.restart_returns (h.toEndless.not_feeds hr) (hc.entry h)
  refine ⟨m, ⟨by omega, a2, fun j j1 j2 => life_busy (a3 j j1 j2)⟩, fun hst => ?_⟩
  obtain ⟨g, g1, g2⟩ := a4 hst
  exact ⟨g, Nat.le_trans (h.length (Nat.le_succ n)) g1, g2⟩

/-! ### Runs that go on for ever -/

/-- A finite run followed by an endless one. -/
theorem prepend {s0 s1 : Sys} {tr : List SEv} (hr : Sys.Run s0 tr s1) (ts : Nat → Sys) (fs : Nat → SEv) (h0 : ts 0 = s1) (hs : ∀ n, Sys.Step (ts n) (fs n) (ts (n + 1))) :
    ∃ (ss : Nat → Sys) (es : Nat → SEv), ss 0 = s0 ∧ (∀ n, Sys.Step (ss n) (es n) (ss (n + 1))) ∧ (∀ n, ss (tr.length + n) = ts n) ∧ (∀ n, es (tr.length + n) = fs n) ∧ (∀ n, es n ∈ tr ∨ ∃ m, es n = fs m) ∧
      ∀ n e, tr[n]? = some e → es n = e := by
  induction hr with
  | nil => exact ⟨ts, fs, h0, hs, fun n => by rw [List.length_nil, Nat.zero_add], fun n => by rw [List.length_nil, Nat.zero_add], fun n => .inr ⟨n, rfl⟩,
      fun n e h => by cases h⟩
  | @cons s s1 s2 e tr h hr ih =>
    obtain ⟨ss, es, a, b, c, d, f, l⟩ := ih h0
    refine ⟨fun n => Nat.casesOn n s ss, fun n => Nat.casesOn n e es, rfl, fun n => ?_, fun n => ?_, fun n => ?_, fun n => ?_, fun n e' h => ?_⟩
    · cases n with
      | zero => show Sys.Step s e (ss 0); rw [a]; exact h
      | succ n => exact b n
    · rw [List.length_cons, Nat.add_right_comm]; exact c n
    · rw [List.length_cons, Nat.add_right_comm]; exact d n
    · cases n with
      | zero => exact .inl (List.mem_cons_self ..)
      | succ n => exact (f n).imp (List.mem_cons_of_mem _) id
    · cases n with
      | zero => cases h; rfl
      | succ n => exact l n e' h

theorem prepend_two {s0 s1 s2 : Sys} {tr tr' : List SEv} (hr : Sys.Run s0 tr s1) (hr' : Sys.Run s1 tr' s2) (ts : Nat → Sys) (fs : Nat → SEv) (h0 : ts 0 = s2)
    (hs : ∀ n, Sys.Step (ts n) (fs n) (ts (n + 1))) :
    ∃ (ss : Nat → Sys) (es : Nat → SEv), ss 0 = s0 ∧ (∀ n, Sys.Step (ss n) (es n) (ss (n + 1))) ∧ (∀ n, ss ((tr ++ tr').length + n) = ts n) ∧
      (∀ n, es ((tr ++ tr').length + n) = fs n) ∧ (∀ n, es n ∈ tr ++ tr' ∨ ∃ m, es n = fs m) ∧ (∀ (n : Nat) e, (tr ++ tr')[n]? = some e → es n = e) ∧
      ss tr.length = s1 := by
  obtain ⟨ss', es', a, b, c, d, f, l⟩ := prepend hr' ts fs h0 hs
  obtain ⟨ss, es, a', b', c', d', f', l'⟩ := prepend hr ss' es' a b
  refine ⟨ss, es, a', b', fun n => ?_, fun n => ?_, fun n => ?_, fun n e h => ?_, by rw [← Nat.add_zero tr.length, c', a]⟩
  · rw [List.length_append, Nat.add_assoc, c', c]
  · rw [List.length_append, Nat.add_assoc, d', d]
  · rcases f' n with h | ⟨m, h⟩
    · exact .inl (List.mem_append_left _ h)
    · rcases f m with h' | ⟨m', h'⟩
      · exact .inl (List.mem_append_right _ (by rw [h]; exact h'))
      · exact .inr ⟨m', by rw [h, h']⟩
  · by_cases hn : n < tr.length
    · rw [List.getElem?_append_left hn] at h
      exact l' n e h
    · rw [List.getElem?_append_right (by omega)] at h
      rw [show n = tr.length + (n - tr.length) by omega, d']
      exact l _ e h

/-- Not a step of a caller other than the first. -/
def solo (e : SEv) : Bool := match e.of with
  | some (.api (_ + 1)) => false
  | _ => true

/-- With only one caller, the others are idle. -/
theorem solo_idle {ss : Nat → Sys} {es : Nat → SEv} {sv : Server} {clock : Int} (h0 : ss 0 = Sys.new sv clock) (hs : ∀ n, Sys.Step (ss n) (es n) (ss (n + 1)))
    (he : ∀ n, solo (es n) = true) (n j : Nat) : (ss n).api (j + 1) = .idle := by
  induction n with
  | zero => rw [h0]; rfl
  | succ n ih =>
    have hw := step_api_other (hs n) (i := j + 1) fun e => by have := he n; unfold solo at this; rw [e] at this; cases this
    rw [ih] at hw
    exact hw.awake rfl rfl

theorem solo_apart {ss : Nat → Sys} {es : Nat → SEv} {sv : Server} {clock : Int} (h0 : ss 0 = Sys.new sv clock) (hs : ∀ n, Sys.Step (ss n) (es n) (ss (n + 1)))
    (he : ∀ n, solo (es n) = true) (n : Nat) : Apart (ss n) := by
  intro i j hij hi
  cases j with
  | succ j => rw [solo_idle h0 hs he]; rfl
  | zero =>
    cases i with
    | zero => exact absurd rfl hij
    | succ i => rw [solo_idle h0 hs he] at hi; cases hi

theorem evs_eq {es : Nat → SEv} {k : Nat} {tr : List SEv} (h : ∀ n e, tr[n]? = some e → es (k + n) = e) : evs es k tr.length = tr := by
  refine List.ext_getElem? fun n => ?_
  unfold evs
  rw [List.getElem?_map]
  by_cases hn : n < tr.length
  · rw [List.getElem?_range hn, List.getElem?_eq_getElem hn, Option.map_some, h n _ (List.getElem?_eq_getElem hn)]
  · rw [List.getElem?_eq_none (by simpa using hn), List.getElem?_eq_none (by omega)]; rfl

/-! ### The case in which WaitForTermination does not return -/

/-- A test starts the mock, posts a record; a client asks for at most 10 bytes of that topic; the test calls RequestStop, which returns, and then
WaitForTermination. The Fetch has found the record, which is too big, and looks again. -/
def spinning : List Pick :=
  starts 0 ++ opens 0 ++ accepts 0 ++ caller 0 (.simplePost [116] 0 none (some [1])) 6 ++ [.conn 0, .conn 0, .recv 0 (.data fetchBytes)] ++ List.replicate 8 (.conn 0) ++
  caller 0 .requestStop 8 ++ [.run 0] ++ caller 0 .waitForTermination 2

set_option maxRecDepth 100000 in
theorem spinning_possible : ((Sys.play spinning (Sys.new ⟨9092, []⟩ 0)).map fun x => x.1.all solo) = some true := by decide +kernel

set_option maxRecDepth 100000 in
theorem spinning_state : let s := after spinning
    s.api 0 = .wait .asleep false ∧ s.conns.length = 1 ∧ s.runs = [⟨.waitActive, 1⟩] ∧ s.active = 1 ∧ s.stopped = true ∧ s.mu = none := ⟨rfl, rfl, rfl, rfl, rfl, rfl⟩

set_option maxRecDepth 100000 in
theorem spinning_conn : ∃ k ex f, (after spinning).conns[0]? = some k ∧ k.pc = .body (.loop (⟨[spinData], true⟩ : FetchSt) (fetchBody ex) f) := ⟨_, _, _, rfl, rfl⟩

theorem spinning_of : ∃ tr, Sys.Run (Sys.new ⟨9092, []⟩ 0) tr (after spinning) ∧ (∀ e ∈ tr, solo e = true) ∧
    ∃ s, Sys.play spinning (Sys.new ⟨9092, []⟩ 0) = some (tr, s) := by
  have h := spinning_possible
  unfold after
  cases hp : Sys.play spinning (Sys.new ⟨9092, []⟩ 0) with
  | none => rw [hp] at h; cases h
  | some x =>
    rw [hp] at h
    exact ⟨x.1, Sys.play_sound hp, fun e he => List.all_eq_true.1 (Option.some.inj h) e he, x.2, rfl⟩

/-- The record found. -/
def spinRec : Record := ⟨0, 0, none, some [1], []⟩

set_option maxRecDepth 100000 in
theorem spinning_record : ((after spinning).ds.part? [116] 0).map (·.records) = some [spinRec] := rfl

theorem spinning_found {s : Sys} (h : s.ds = (after spinning).ds) (c : Nat) : (Act.fetchRecord [116] 0 0).step (s.view c) (some (some spinRec)) (s.view c) := by
  have hr := spinning_record
  cases hp : (after spinning).ds.part? [116] 0 with
  | none => rw [hp] at hr; cases hr
  | some kp =>
    rw [hp] at hr
    have hr : kp.records = [spinRec] := Option.some.inj hr
    refine ⟨kp, ?_, rfl, ?_⟩
    · show s.ds.part? [116] 0 = _
      rw [h]; exact hp
    · rw [hr]; rfl

theorem spinning_unroll (ex : Int) (f : List FetchData → Prog Unit) : ∃ g, Prog.unroll (⟨[spinData], true⟩ : FetchSt) (fetchBody ex) f = .act (.fetchRecord [116] 0 0) g ∧
    g (some (some spinRec)) = .loop (⟨[spinData], true⟩ : FetchSt) (fetchBody ex) f := ⟨_, rfl, rfl⟩

/-- The run goes on for ever: the Fetch finds the record again and again. -/
theorem spinning_run : ∃ (ss : Nat → Sys) (es : Nat → SEv) (tr : List SEv) (s : Sys), Orderly ⟨9092, []⟩ 0 ss es ∧ (∀ n j, (ss n).api (j + 1) = .idle) ∧
    Sys.play spinning (Sys.new ⟨9092, []⟩ 0) = some (tr, s) ∧ evs es 0 tr.length = tr ∧
    ∀ n, tr.length ≤ n → ((ss n).stopped = true ∧ (ss n).api 0 = .wait .asleep false) ∧ (es n = .unroll 0 ∨ es n = .conn 0 (.fetchRecord [116] 0 0) (some (some spinRec))) := by
  obtain ⟨tr, hr, htr, sA, hplay⟩ := spinning_of
  obtain ⟨k, ex, f, hk, hp⟩ := spinning_conn
  obtain ⟨q1, q2, q3, q4, q5, q6⟩ := spinning_state
  obtain ⟨g, hg, hg'⟩ := spinning_unroll ex f
  have found := fun (s : Sys) (h : s.ds = (after spinning).ds) c => spinning_found h c
  generalize after spinning = A at *
  -- one round: the loop is unrolled, the record is found
  let kA : ConnG := { k with pc := .body (.loop (⟨[spinData], true⟩ : FetchSt) (fetchBody ex) f) }
  let kB : ConnG := { k with pc := .body (Prog.unroll (⟨[spinData], true⟩ : FetchSt) (fetchBody ex) f) }
  let next : Bool × Sys → Bool × Sys := fun x => if x.1 then (false, (x.2.setView k.ctx (x.2.view k.ctx)).setConn 0 kA) else (true, x.2.setConn 0 kB)
  let xs : Nat → Bool × Sys := fun n => Nat.rec (false, A) (fun _ x => next x) n
  let ev : Bool → SEv := fun b => if b then .conn 0 (.fetchRecord [116] 0 0) (some (some spinRec)) else .unroll 0
  have hx : ∀ n, (xs n).2.conns[0]? = some (if (xs n).1 then kB else kA) ∧ (xs n).2.conns.length = 1 ∧ (xs n).2.ds = A.ds ∧
      (xs n).2.api = A.api ∧ (xs n).2.runs = [⟨.waitActive, 1⟩] ∧ (xs n).2.active = 1 ∧ (xs n).2.stopped = true := by
    intro n
    induction n with
    | zero =>
      refine ⟨?_, q2, rfl, rfl, q3, q4, q5⟩
      show A.conns[0]? = some kA
      rw [hk]
      show some k = some { k with pc := _ }
      rw [← hp]
    | succ n ih =>
      obtain ⟨i1, i2, i3, i4, i5, i6, i7⟩ := ih
      have e : xs (n + 1) = next (xs n) := rfl
      rw [e]
      generalize xs n = x at *
      obtain ⟨b, s⟩ := x
      have hl : 0 < s.conns.length := by show 0 < (b, s).2.conns.length; omega
      cases b with
      | false => exact ⟨List.getElem?_set_self hl, (List.length_set ..).trans i2, i3, i4, i5, i6, i7⟩
      | true => exact ⟨List.getElem?_set_self hl, (List.length_set ..).trans i2, i3, i4, i5, i6, i7⟩
  have hstep : ∀ n, Sys.Step (xs n).2 (ev (xs n).1) (xs (n + 1)).2 := by
    intro n
    obtain ⟨i1, _, i3, _⟩ := hx n
    have e : xs (n + 1) = next (xs n) := rfl
    rw [e]
    generalize xs n = x at *
    obtain ⟨b, s⟩ := x
    cases b with
    | false => exact .unroll (k := kA) i1 rfl
    | true =>
      have := Sys.Step.conn (s := s) (c := 0) (k := kB) (a := .fetchRecord [116] 0 0) (f := g) (r := some (some spinRec)) i1 (by rw [← hg]) (found s i3 _)
      rw [hg'] at this
      exact this
  obtain ⟨ss, es, s1, s2, s3, s4, s5, s6⟩ := prepend hr (fun n => (xs n).2) (fun n => ev (xs n).1) rfl hstep
  have hsolo : ∀ n, solo (es n) = true := by
    intro n
    rcases s5 n with h | ⟨m, h⟩
    · exact htr _ h
    · rw [h]
      generalize (xs m).1 = b
      cases b <;> rfl
  have tail : ∀ n, tr.length ≤ n → ∃ m, ss n = (xs m).2 ∧ es n = ev (xs m).1 := fun n hn =>
    ⟨n - tr.length, by rw [← s3, Nat.add_sub_cancel' hn], by rw [← s4, Nat.add_sub_cancel' hn]⟩
  refine ⟨ss, es, tr, sA, ⟨⟨s1, s2, ?_⟩, solo_apart s1 s2 hsolo⟩, fun n j => solo_idle s1 s2 hsolo n j, hplay, evs_eq fun n e he => by rw [Nat.zero_add]; exact s6 n e he, fun n hn => ?_⟩
  · intro t _ ht n
    have hmax := Nat.le_max_left n tr.length
    have hmax' := Nat.le_max_right n tr.length
    obtain ⟨m, h1, h2⟩ := ht (max n tr.length)
    obtain ⟨m', e1, e2⟩ := tail m (by omega)
    obtain ⟨i1, i2, i3, i4, i5, i6, i7⟩ := hx m'
    rw [e1] at h2
    cases t with
    | api i =>
      exfalso
      have h2 : ((xs m').2.api i).ready _ := h2
      cases i with
      | zero => rw [i4, q1] at h2; exact h2
      | succ i =>
        have := solo_idle s1 s2 hsolo m i
        rw [e1] at this
        rw [this] at h2; exact h2
    | run g =>
      exfalso
      obtain ⟨r, a, b⟩ := h2
      rw [i5] at a
      cases g with
      | zero =>
        cases a
        have b : (xs m').2.active = 0 := b
        omega
      | succ g => cases a
    | conn c =>
      obtain ⟨kc, a, b⟩ := h2
      have hc : c = 0 := by
        have := (List.getElem?_eq_some_iff.1 a).1
        omega
      subst hc
      refine ⟨m, by omega, ?_⟩
      rw [e2]
      generalize (xs m').1 = b
      cases b <;> rfl
  · obtain ⟨m', e1, e2⟩ := tail n hn
    obtain ⟨i1, i2, i3, i4, i5, i6, i7⟩ := hx m'
    rw [e1, e2]
    refine ⟨⟨i7, by rw [i4]; exact q1⟩, ?_⟩
    generalize (xs m').1 = b
    cases b with
    | false => exact .inl rfl
    | true => exact .inr rfl

/-- C68 is false without the restriction on Fetch: the scheduler is fair, there is one caller, RequestStop has returned, and WaitForTermination never
returns, because a connection looks for ever for a record that fits. -/
theorem C68_false : ∃ (ss : Nat → Sys) (es : Nat → SEv), Orderly ⟨9092, []⟩ 0 ss es ∧ (∀ n j, (ss n).api (j + 1) = .idle) ∧
    ∃ N, ∀ n, N ≤ n → (ss n).stopped = true ∧ (ss n).api 0 = .wait .asleep false := by
  obtain ⟨ss, es, tr, _, h1, h2, _, _, h3⟩ := spinning_run
  exact ⟨ss, es, h1, h2, tr.length, fun n hn => (h3 n hn).1⟩

/-! ### Such runs exist -/

instance (w : World) (q : FetchRequest) : Decidable (Room w q) := by unfold Room; infer_instance

/-- If the event takes up a Fetch, it has room. -/
def roomAt (s : Sys) : SEv → Bool
  | .conn _ (.reqBegin m) _ => match fetchAsked m with
    | some q => decide (Room (s.view 0) q)
    | none => true
  | _ => true

/-- A schedule with one caller, who calls `c` after `ps1`; after `ps2` everything has come to an end. There is room for every Fetch taken up. -/
def settles (ps1 : List Pick) (c : Call) (ps2 : List Pick) : Bool :=
  match Sys.play ps1 (Sys.new ⟨9092, []⟩ 0) with
  | none => false
  | some (tr1, s1) =>
    tr1.all solo && (match s1.api 0 with | .idle => true | _ => false) &&
    match s1.next (.api 0 c) with
    | .ok s2 =>
      match Sys.play ps2 s2 with
      | none => false
      | some (tr2, s3) => tr2.all solo && (match s3.api 0 with | .idle => true | _ => false) && s3.runs.all (·.pc == .ended) &&
          (s3.conns.all fun k => match k.pc with | .ended => true | _ => false) && (tr1 ++ tr2).all (roomAt s3)
    | _ => false

theorem _root_.KM.Sys.play_split {psa psb : List Pick} {s s3 : Sys} {tr : List SEv} (h : Sys.play (psa ++ psb) s = some (tr, s3)) :
    ∃ tra sa trb, Sys.play psa s = some (tra, sa) ∧ Sys.play psb sa = some (trb, s3) ∧ tr = tra ++ trb := by
  induction psa generalizing s tr with
  | nil => exact ⟨[], s, tr, rfl, h, rfl⟩
  | cons p psa ih =>
    rw [List.cons_append, Sys.play] at h
    split at h
    · cases h
    next e s1 hp =>
    split at h
    · cases h
    next e2 s2 h2 =>
    cases h
    obtain ⟨tra, sa, trb, a, b, c⟩ := ih h2
    exact ⟨e :: tra, sa, trb, by simp only [Sys.play, hp, a], b, by rw [c]; rfl⟩

theorem settles_run_mid {ps1 psa psb : List Pick} {c : Call} (h : settles ps1 c (psa ++ psb) = true) :
    ∃ ss es n, Orderly ⟨9092, []⟩ 0 ss es ∧ Roomy ss es ∧ CallsAt ss es 0 c n ∧ ∃ tr s, Sys.play ps1 (Sys.new ⟨9092, []⟩ 0) = some (tr, s) ∧ evs es 0 n = tr ∧
      ∃ s2, s.next (.api 0 c) = .ok s2 ∧ ∃ tr2 s3, Sys.play (psa ++ psb) s2 = some (tr2, s3) ∧ evs es (n + 1) tr2.length = tr2 ∧
        (∀ m, n + 1 + tr2.length ≤ m → es m = .tick 1 ∧ (ss m).ds = s3.ds) ∧ ∃ tra sa, Sys.play psa s2 = some (tra, sa) ∧ evs es (n + 1) tra.length = tra ∧
          ss (n + 1 + tra.length) = sa := by
  unfold settles at h
  split at h
  · cases h
  next tr1 s1 hp1 =>
  rw [Bool.and_eq_true, Bool.and_eq_true] at h
  obtain ⟨⟨h1, h2⟩, h3⟩ := h
  split at h3
  · next s2 hn =>
    split at h3
    · cases h3
    next tr2 s3 hp2 =>
    simp only [Bool.and_eq_true] at h3
    obtain ⟨⟨⟨⟨h3, h4⟩, h5⟩, h6⟩, h7⟩ := h3
    have i1 : s1.api 0 = .idle := by
      revert h2; generalize s1.api 0 = pc; intro h2
      cases pc <;> first | rfl | cases h2
    have i3 : s3.api 0 = .idle := by
      revert h4; generalize s3.api 0 = pc; intro h4
      cases pc <;> first | rfl | cases h4
    let ts : Nat → Sys := fun n => Nat.rec s3 (fun _ (s : Sys) => { s with clock := s.clock + (1 : Nat) }) n
    have ht : ∀ n, (ts n).api = s3.api ∧ (ts n).runs = s3.runs ∧ (ts n).conns = s3.conns ∧ (ts n).ds = s3.ds := by
      intro n
      induction n with
      | zero => exact ⟨rfl, rfl, rfl, rfl⟩
      | succ n ih => exact ih
    obtain ⟨tra, sa, trb, hpa, hpb, rfl⟩ := Sys.play_split hp2
    obtain ⟨ss', es', s1', s2', s3', s4', s5', s6', s7'⟩ := prepend_two (tr := .life (.api 0 c) :: tra) (.cons (.life hn) (Sys.play_sound hpa)) (Sys.play_sound hpb) ts (fun _ => .tick 1) rfl fun n => .tick 1
    rw [List.cons_append] at s3' s4' s5' s6'
    generalize htr2 : tra ++ trb = tr2 at *
    obtain ⟨ss, es, t1, t2, t3, t4, t5, t6⟩ := prepend (Sys.play_sound hp1) ss' es' s1' s2'
    have hsolo : ∀ n, solo (es n) = true := by
      intro n
      rcases t5 n with h | ⟨m, h⟩
      · exact List.all_eq_true.1 h1 _ h
      · rw [h]
        rcases s5' m with h | ⟨m, h⟩
        · rcases List.mem_cons.1 h with h | h
          · rw [h]; rfl
          · exact List.all_eq_true.1 h3 _ h
        · rw [h]; rfl
    have tail : ∀ n, tr1.length + (tr2.length + 1) ≤ n → ∃ m, ss n = ts m ∧ es n = .tick 1 := fun n hn => by
      refine ⟨n - (tr1.length + (tr2.length + 1)), ?_, ?_⟩
      · rw [← s3', ← t3]; congr 1; simp only [List.length_cons]; omega
      · have := s4' (n - (tr1.length + (tr2.length + 1)))
        rw [← t4] at this
        rw [← this]; congr 1; simp only [List.length_cons]; omega
    have fair : ∀ t, (∀ n, ∃ m, n ≤ m ∧ (ss m).ready t) → ∀ n, ∃ m, n ≤ m ∧ (es m).of = some t := by
      intro t hr n
      exfalso
      obtain ⟨m, m1, m2⟩ := hr (tr1.length + (tr2.length + 1))
      obtain ⟨m', e1, _⟩ := tail m m1
      obtain ⟨x1, x2, x3, _⟩ := ht m'
      cases t with
      | api i =>
        have m2 : ((ss m).api i).ready (ss m) := m2
        cases i with
        | zero => rw [e1, x1, i3] at m2; exact m2
        | succ i => rw [solo_idle t1 t2 hsolo] at m2; exact m2
      | run g =>
        obtain ⟨r, a, b⟩ := m2
        rw [e1, x2] at a
        have := List.all_eq_true.1 h5 r (List.mem_of_getElem? a)
        have : r.pc = .ended := by simpa using this
        rw [this] at b; exact b
      | conn k =>
        obtain ⟨r, a, b⟩ := m2
        rw [e1, x3] at a
        have := List.all_eq_true.1 h6 r (List.mem_of_getElem? a)
        revert this b; generalize r.pc = pc; intro b this
        cases pc <;> first | exact b | cases this
    refine ⟨ss, es, tr1.length, ⟨⟨t1, t2, fun t _ => fair t⟩, solo_apart t1 t2 hsolo⟩, ?_, ⟨?_, ?_⟩, tr1, s1, hp1, evs_eq fun n e he => by rw [Nat.zero_add]; exact t6 n e he, s2, hn, tr2, s3, hp2,
      evs_eq fun n e he => by rw [Nat.add_assoc, t4, Nat.add_comm 1 n]; exact s6' (n + 1) e he,
      fun m hm => ?_, tra, sa, hpa, ?_, ?_⟩
    · rintro k j m q ⟨b, _, hb, _⟩ ha
      have hq : roomAt s3 (.conn k (.reqBegin m) ()) = true := by
        rcases t5 b with h | ⟨m', h⟩
        · rw [hb] at h; exact List.all_eq_true.1 h7 _ (List.mem_append_left _ h)
        · rcases s5' m' with h' | ⟨_, h'⟩
          · rw [← h, hb] at h'
            rcases List.mem_cons.1 h' with e | e
            · cases e
            · exact List.all_eq_true.1 h7 _ (List.mem_append_right _ e)
          · rw [← h, hb] at h'; cases h'
      simp only [roomAt, ha, decide_eq_true_eq] at hq
      obtain ⟨m', e1, _⟩ := tail (max j (tr1.length + (tr2.length + 1))) (Nat.le_max_right ..)
      have hE : KM.Endless ⟨9092, []⟩ 0 ss es := ⟨t1, t2, fun t _ => fair t⟩
      obtain ⟨tr, hr⟩ := hE.run (Nat.le_max_left j (tr1.length + (tr2.length + 1)))
      obtain ⟨l, hl, _⟩ := hr.steps 0
      refine Room.before hl ?_
      rw [e1]
      have hds := (ht m').2.2.2
      intro src hs
      have := hq src hs
      simp only [available, World.log, Sys.view] at this ⊢
      rw [hds]
      exact this
    · have := t3 0
      rw [Nat.add_zero] at this
      rw [this, s1']; exact i1
    · have := t4 0
      rw [Nat.add_zero] at this
      rw [this]
      exact s6' 0 _ rfl
    · obtain ⟨m', e1, e2⟩ := tail m (by omega)
      exact ⟨e2, by rw [e1]; exact (ht m').2.2.2⟩
    · refine evs_eq fun n e he => ?_
      rw [Nat.add_assoc, t4, Nat.add_comm 1 n]
      refine s6' (n + 1) e ?_
      rw [← htr2, List.getElem?_cons_succ, List.getElem?_append_left (List.getElem?_eq_some_iff.1 he).1]
      exact he
    · rw [Nat.add_assoc, t3, Nat.add_comm 1]
      exact s7'
  · cases h3

theorem settles_run {ps1 ps2 : List Pick} {c : Call} (h : settles ps1 c ps2 = true) :
    ∃ ss es n, Orderly ⟨9092, []⟩ 0 ss es ∧ Roomy ss es ∧ CallsAt ss es 0 c n ∧ ∃ tr s, Sys.play ps1 (Sys.new ⟨9092, []⟩ 0) = some (tr, s) ∧ evs es 0 n = tr ∧
      ∃ s2, s.next (.api 0 c) = .ok s2 ∧ ∃ tr2 s3, Sys.play ps2 s2 = some (tr2, s3) ∧ evs es (n + 1) tr2.length = tr2 := by
  obtain ⟨ss, es, n, h1, h2, h3, tr, s, h4, h5, s2, h6, tr2, s3, h7, h8, _⟩ := settles_run_mid (psa := []) h
  exact ⟨ss, es, n, h1, h2, h3, tr, s, h4, h5, s2, h6, tr2, s3, h7, h8⟩

/-- RequestStop, with a connected client. -/
example : settles (starts 0 ++ opens 0 ++ accepts 0) .requestStop
    (caller 0 .requestStop 7 ++ [.run 0] ++ windsUp 0 ++ closesUp 0 ++ List.replicate 3 (.run 0)) = true := by decide +kernel

/-- WaitForTermination, called when a stop has been requested and a client is still connected. -/
example : settles (starts 0 ++ opens 0 ++ accepts 0 ++ caller 0 .requestStop 8) .waitForTermination
    (caller 0 .waitForTermination 1 ++ [.run 0] ++ windsUp 0 ++ closesUp 0 ++ List.replicate 3 (.run 0) ++ caller 0 .waitForTermination 2) = true := by decide +kernel

/-- Restart with a connected client; then the mock is stopped. -/
example : settles (starts 0 ++ opens 0 ++ accepts 0) .restart
    (caller 0 .restart 8 ++ [.run 0] ++ windsUp 0 ++ closesUp 0 ++ List.replicate 3 (.run 0) ++ caller 0 .restart 12 ++ opens 1 ++ caller 0 .restart 1 ++
      caller 0 .requestStop 8 ++ List.replicate 4 (.run 1)) = true := by decide +kernel

/-- RequestStop, while a Fetch is being served. -/
def fetchInService : List Pick :=
  starts 0 ++ opens 0 ++ accepts 0 ++ caller 0 (.simplePost [116] 0 none (some [1])) 6 ++ [.conn 0, .conn 0, .recv 0 (.data (fetchBytes.take 52 ++ [3, 232]))] ++
  List.replicate 8 (.conn 0)

theorem fetchInService_settles : settles fetchInService .requestStop
    (caller 0 .requestStop 7 ++ [.run 0] ++ List.replicate 10 (.conn 0) ++ closesUp 0 ++ List.replicate 3 (.run 0)) = true := by decide +kernel

/-- Start. -/
example : settles [] .start (caller 0 .start 9 ++ opens 0 ++ caller 0 .requestStop 8 ++ List.replicate 4 (.run 0)) = true := by decide +kernel

/-! ### C69 -/

theorem RunIn.apart {sv : Server} {clock : Int} {tr : List SEv} {s : Sys} (h : RunIn Apart (Sys.new sv clock) tr s) :
    Apart s ∧ s.Inv ∧ CtxInv s ∧ Opened s ∧ ListenerInv s ∧ ApartInv s ∧ (s.ctx = none → s.runs = []) := by
  have i0 := Sys.inv_new sv clock
  have c0 : CtxInv (Sys.new sv clock) := ⟨fun _ _ h => by simp [Sys.new] at h, fun _ h => (by cases h), fun _ _ h => by simp [Sys.new] at h⟩
  have o0 : Opened (Sys.new sv clock) := fun g r h => by simp [Sys.new] at h
  have l0 : ListenerInv (Sys.new sv clock) := ⟨fun _ h => (by cases h), fun _ h => (by cases h), List.nodup_nil⟩
  have a0 := apartInv_new sv clock
  have n0 : (Sys.new sv clock).ctx = none → (Sys.new sv clock).runs = [] := fun _ => rfl
  generalize Sys.new sv clock = s0 at h i0 c0 o0 l0 a0 n0
  induction h with
  | nil hp => exact ⟨hp, i0, c0, o0, l0, a0, n0⟩
  | cons hp h hs ih =>
    refine ih (h.inv i0) (step_ctxInv h i0 c0) (step_opened h i0 o0) (step_listenerInv h l0) (step_apartInv h i0 c0 o0 l0 hp hs.first a0) fun hc => ?_
    have ef := step_effects h
    have hn := ef.ctx.resolve_right fun h => h hc
    rw [hn] at hc
    have hr := n0 hc
    rcases ef.runs with e | ⟨j, r, e⟩
    · rw [hr] at e; exact List.eq_nil_of_length_eq_zero e
    · have := c0.start j (by rw [e]; rfl)
      rw [hc] at this; cases this

/-- **C69**: a call panics only if it is Start, called by a test, which found the mock started, or FinishRequests, called before the first Start.
Missing for the full statement: calls that overlap with Start (`C69_false`). -/
theorem C69_partial {sv : Server} {clock : Int} {tr : List SEv} {s s' : Sys} {e : SEv} (h : RunIn Apart (Sys.new sv clock) tr s) (hs : Sys.Step s e s') (ha : Apart s')
    {i : Nat} {why : Panic} (hp : s'.api i = .panicked why) (hne : s.api i ≠ .panicked why) :
    (why = .startTwice ∧ s.api i = .start .panicUnlock false) ∨ (why = .nilCancel ∧ s.api i = .finish ∧ s.runs = []) := by
  obtain ⟨h1, h2, h3, h4, h5, h6, h7⟩ := h.apart
  have h8 := step_apartInv hs h2 h3 h4 h5 h1 ha h6
  rcases step_api hs i with ⟨_, hn⟩ | ⟨_, hn⟩
  · generalize hq : s.api i = pc at hn hne
    rw [hp] at hn
    generalize hpc' : ApiPc.panicked why = pc' at hn
    cases hn with
    | call c => cases c <;> cases hpc'
    | again b | unstarted b | cancel b => cases b <;> cases hpc'
    | panicUnlock r =>
      cases hpc'
      cases r with
      | false => exact .inl ⟨rfl, rfl⟩
      | true => exact absurd hq (h6.twice i)
    | cancelNil b hb => exact absurd hb (h6.tearing i (by rw [hq]; rfl))
    | initReused | waitReused | restartReused => cases hpc'; exact absurd hp (h8.reused i)
    | finishNil hb => cases hpc'; exact .inr ⟨rfl, rfl, h7 hb⟩
    | _ => cases hpc'
  · exfalso
    generalize s.api i = pc at hn hne
    rw [hp] at hn
    generalize hpc' : ApiPc.panicked why = pc' at hn
    cases hn with
    | not => exact hne hpc'.symm
    | wg =>
      unfold ApiPc.wakeWg at hpc'
      split at hpc'
      · cases hpc'
      · exact hne hpc'.symm
    | init =>
      unfold ApiPc.wakeInit at hpc'
      split at hpc'
      · cases hpc'
      · cases hpc'
      · exact hne hpc'.symm

/-- **C69**, Start: when it decides to panic, an accept loop is running, and Start was called by a test, not by Restart.
Missing for the full statement: calls that overlap with Start. -/
theorem C69_started_partial {sv : Server} {clock : Int} {tr : List SEv} {s s' : Sys} {e : SEv} (h : RunIn Apart (Sys.new sv clock) tr s) (hs : Sys.Step s e s') (ha : Apart s')
    {i : Nat} {r : Bool} (hp : s'.api i = .start .panicUnlock r) (hne : s.api i ≠ .start .panicUnlock r) :
    r = false ∧ ∃ (g : Nat) (l : RunG), s.runs[g]? = some l ∧ l.pc.running = true := by
  obtain ⟨h1, h2, h3, h4, h5, h6, h7⟩ := h.apart
  have h8 := step_apartInv hs h2 h3 h4 h5 h1 ha h6
  refine ⟨?_, ?_⟩
  · cases r with
    | false => rfl
    | true => exact absurd hp (h8.twice i)
  · rcases step_api hs i with ⟨_, hn⟩ | ⟨_, hn⟩
    · generalize hq : s.api i = pc at hn hne
      rw [hp] at hn
      generalize hpc' : ApiPc.start .panicUnlock r = pc' at hn
      cases hn with
      | call c => cases c <;> cases hpc'
      | again b | unstarted b | cancel b => cases b <;> cases hpc'
      | twice r hb =>
        have h0 := h2.started
        have hz : s.ofHolder ApiPc.starting = 0 := by
          have hm := (h2.mu (.api i)).1 (by simp [Sys.holds, hq, ApiPc.locked])
          unfold Sys.ofHolder
          rw [hm]
          simp only [hq]
          rfl
        rw [hb, hz] at h0
        have h1 : 0 < s.runs.countP (·.pc.running) := by simp at h0; omega
        obtain ⟨l, a, b⟩ := List.countP_pos_iff.1 h1
        obtain ⟨g, hg⟩ := List.mem_iff_getElem?.1 a
        exact ⟨g, l, hg, b⟩
      | _ => cases hpc'
    · exfalso
      generalize s.api i = pc at hn hne
      rw [hp] at hn
      generalize hpc' : ApiPc.start .panicUnlock r = pc' at hn
      cases hn with
      | not => exact hne hpc'.symm
      | wg =>
        unfold ApiPc.wakeWg at hpc'
        split at hpc'
        · cases hpc'
        · exact hne hpc'.symm
      | init =>
        unfold ApiPc.wakeInit at hpc'
        split at hpc'
        · cases hpc'
        · cases hpc'
        · exact hne hpc'.symm

/-- With a single caller, the calls do not overlap with Start. -/
theorem solo_runIn {s0 s : Sys} {tr : List SEv} (h : Sys.Run s0 tr s) (h0 : ∀ j, s0.api (j + 1) = .idle) (he : tr.all solo = true) : RunIn Apart s0 tr s := by
  have ap : ∀ s : Sys, (∀ j, s.api (j + 1) = .idle) → Apart s := fun s h i j hij hi => by
    cases j with
    | succ j => rw [h]; rfl
    | zero =>
      cases i with
      | zero => exact absurd rfl hij
      | succ i => rw [h] at hi; cases hi
  induction h with
  | nil => exact .nil (ap _ h0)
  | cons h hs ih =>
    rw [List.all_cons, Bool.and_eq_true] at he
    refine .cons (ap _ h0) h (ih (fun j => ?_) he.2)
    have hw := step_api_other h (i := j + 1) fun e => by have := he.1; unfold solo at this; rw [e] at this; cases this
    rw [h0] at hw
    exact hw.awake rfl rfl

theorem solo_played {ps : List Pick} (h : ((Sys.play ps (Sys.new ⟨9092, []⟩ 0)).map fun x => x.1.all solo) = some true) :
    ∃ tr, RunIn Apart (Sys.new ⟨9092, []⟩ 0) tr (after ps) := by
  unfold after
  cases hp : Sys.play ps (Sys.new ⟨9092, []⟩ 0) with
  | none => rw [hp] at h; cases h
  | some x =>
    rw [hp] at h
    exact ⟨x.1, solo_runIn (Sys.play_sound hp) (fun _ => rfl) (Option.some.inj h)⟩

/-- A second Start panics. -/
example : ∃ tr s, RunIn Apart (Sys.new ⟨9092, []⟩ 0) tr s ∧ s.api 0 = .panicked .startTwice := by
  obtain ⟨tr, h⟩ := solo_played (ps := starts 0 ++ opens 0 ++ caller 0 .start 4) (by decide +kernel)
  exact ⟨tr, _, h, rfl⟩

/-- FinishRequests before Start panics. -/
example : ∃ tr s, RunIn Apart (Sys.new ⟨9092, []⟩ 0) tr s ∧ s.api 0 = .panicked .nilCancel := by
  obtain ⟨tr, h⟩ := solo_played (ps := caller 0 .finishRequests 2) (by decide +kernel)
  exact ⟨tr, _, h, rfl⟩

/-- Restart before Start returns, and so do RequestStop and WaitForTermination. -/
example : ∃ tr s, RunIn Apart (Sys.new ⟨9092, []⟩ 0) tr s ∧ s.api 0 = .idle ∧ s.started = true := by
  obtain ⟨tr, h⟩ := solo_played (ps := caller 0 .requestStop 3 ++ caller 0 .waitForTermination 3 ++ caller 0 .restart 13 ++ opens 0 ++ caller 0 .restart 1) (by decide +kernel)
  exact ⟨tr, _, h, rfl, rfl⟩

/-- The schedule of the counterexample: goroutine 1 is in WaitForTermination while goroutine 0 calls Restart. -/
def restartedUnder : List Pick :=
  starts 0 ++ opens 0 ++ caller 1 .waitForTermination 2 ++ caller 0 .restart 8 ++ List.replicate 4 (.run 0) ++ caller 0 .restart 8 ++ caller 1 .waitForTermination 1

/-- C69 is false when Restart is called while another goroutine is in WaitForTermination: WaitForTermination panics. -/
theorem C69_false : ∃ s : Sys, s.Reachable ∧ s.api 1 = .panicked .waitGroupReused :=
  ⟨_, after_reachable restartedUnder, rfl⟩

end KM.Props
