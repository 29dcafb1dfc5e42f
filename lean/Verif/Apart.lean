import Verif.LifeNext
/-
Runs in which Start is not called while another goroutine is in Start, RequestStop, WaitForTermination or Restart: invariants.
-/
namespace KM
open Props

/-- In Start, after line 55. -/
def ApiPc.renewed : ApiPc → Bool
  | .start .derive _ | .start .addWg _ | .start .addInit _ | .start .spawn _ | .start .unlock _ => true
  | _ => false

/-- In RequestStop, after the test of line 69. -/
def ApiPc.tearing : ApiPc → Bool
  | .stop (.init _) _ | .stop .lock _ | .stop .close _ | .stop .unlock _ | .stop .cancel _ => true
  | _ => false

/-- In RequestStop, after line 72. -/
def ApiPc.pastInit : ApiPc → Bool
  | .stop .lock _ | .stop .close _ | .stop .unlock _ | .stop .cancel _ => true
  | _ => false

/-- In RequestStop, after line 80. -/
def ApiPc.pastClose : ApiPc → Bool
  | .stop .unlock _ | .stop .cancel _ => true
  | _ => false

/-- In Restart, after the wait for `km.wg` and before Start has set `started`. -/
def ApiPc.between : ApiPc → Bool
  | .stop _ .restartWait | .start .lock true | .start .swap true => true
  | _ => false

structure ApartInv (s : Sys) : Prop where
  renewed : ∀ i, (s.api i).renewed = true → s.stopped = false
  inStop : ∀ i, inStop (s.api i) = true → s.stopped = true
  once : ∀ i j, Props.inStop (s.api i) = true → Props.inStop (s.api j) = true → i = j
  stop : s.stopped = true → (∀ i, Props.inStop (s.api i) = false) → ∀ (g : Nat) (r : RunG), s.runs[g]? = some r → r.pc.running = true →
    g ∈ s.closes ∧ s.isDone g = true
  open' : s.stopped = false → ∀ (g : Nat) (r : RunG), s.runs[g]? = some r → r.pc.running = true → g ∉ s.closes
  pastInit : ∀ i, (s.api i).pastInit = true → ∀ (g : Nat) (r : RunG), s.runs[g]? = some r → r.pc.initializing = false
  pastClose : ∀ i, (s.api i).pastClose = true → ∀ (g : Nat) (r : RunG), s.runs[g]? = some r → r.pc.running = true → g ∈ s.closes
  tearing : ∀ i, (s.api i).tearing = true → s.ctx ≠ none
  wokenWg : ∀ i, (s.api i).wokenWg = true → s.wg = 0
  wokenInit : ∀ i, (s.api i).wokenInit = true → s.init = 0
  between : ∀ i, (s.api i).between = true → s.started = false
  waits : ∀ i k, s.api i = .wait k true → s.stopped = true
  twice : ∀ i, s.api i ≠ .start .panicUnlock true
  reused : ∀ i, s.api i ≠ .panicked .waitGroupReused

theorem apartInv_new (sv : Server) (clock : Int) : ApartInv (Sys.new sv clock) where
  renewed := fun _ h => by cases h
  inStop := fun _ h => by cases h
  once := fun _ _ h => by cases h
  stop := fun h => by cases h
  open' := fun _ g r h => by simp [Sys.new] at h
  pastInit := fun _ h => by cases h
  pastClose := fun _ h => by cases h
  tearing := fun _ h => by cases h
  wokenWg := fun _ h => by cases h
  wokenInit := fun _ h => by cases h
  between := fun _ h => by cases h
  waits := fun _ _ h => by cases h
  twice := fun _ h => by cases h
  reused := fun _ h => by cases h

theorem Woken.more {pc pc' : ApiPc} (h : Woken pc pc') : pc'.renewed = pc.renewed ∧ pc'.tearing = pc.tearing ∧ pc'.pastInit = pc.pastInit ∧
    pc'.pastClose = pc.pastClose ∧ pc'.between = pc.between ∧ pc'.life = pc.life ∧ pc'.inStart = pc.inStart ∧ Props.inStop pc' = Props.inStop pc ∧
    (pc' = .start .panicUnlock true → pc = .start .panicUnlock true) ∧ (pc' = .panicked .waitGroupReused → pc = .panicked .waitGroupReused) ∧
    (∀ k, pc' = .wait k true → ∃ k, pc = .wait k true) := by
  cases h with
  | not => exact ⟨rfl, rfl, rfl, rfl, rfl, rfl, rfl, rfl, id, id, fun k h => ⟨k, h⟩⟩
  | wg =>
    unfold ApiPc.wakeWg
    split
    · exact ⟨rfl, rfl, rfl, rfl, rfl, rfl, rfl, rfl, fun h => (by cases h), fun h => (by cases h), fun k h => by cases h; exact ⟨_, rfl⟩⟩
    · exact ⟨rfl, rfl, rfl, rfl, rfl, rfl, rfl, rfl, id, id, fun k h => ⟨k, h⟩⟩
  | init =>
    unfold ApiPc.wakeInit
    split
    · next b => cases b <;> exact ⟨rfl, rfl, rfl, rfl, rfl, rfl, rfl, rfl, fun h => (by cases h), fun h => (by cases h), fun k h => by cases h⟩
    · exact ⟨rfl, rfl, rfl, rfl, rfl, rfl, rfl, rfl, fun h => (by cases h), fun h => (by cases h), fun k h => by cases h⟩
    · exact ⟨rfl, rfl, rfl, rfl, rfl, rfl, rfl, rfl, id, id, fun k h => ⟨k, h⟩⟩

/-- A step made by a caller in line 67. -/
theorem swap_stopped {s s' : Sys} {e : SEv} (h : Sys.Step s e s') {i : Nat} {b : StopBy} (he : e.of = some (.api i)) (hp : s.api i = .stop .swap b) : s'.stopped = true := by
  rcases step_by_api h he with ⟨c, hn⟩ | ⟨_, _, _, _, hp', _⟩
  · simp only [Sys.apiStep, hp, Sys.stopStep] at hn; cases hn; rfl
  · rw [hp] at hp'; cases hp'

/-- A step made by a caller in line 55. -/
theorem unstop_stopped {s s' : Sys} {e : SEv} (h : Sys.Step s e s') {i : Nat} {r : Bool} (he : e.of = some (.api i)) (hp : s.api i = .start .unstop r) : s'.stopped = false := by
  rcases step_by_api h he with ⟨c, hn⟩ | ⟨_, _, _, _, hp', _⟩
  · simp only [Sys.apiStep, hp, Sys.startStep] at hn; cases hn; rfl
  · rw [hp] at hp'; cases hp'

/-- A step made by a caller in lines 76-80. -/
theorem close_closes {s s' : Sys} {e : SEv} (h : Sys.Step s e s') {i : Nat} {b : StopBy} (he : e.of = some (.api i)) (hp : s.api i = .stop .close b) :
    ∀ g, s.listener = some g → g ∈ s'.closes := by
  intro g hg
  rcases step_by_api h he with ⟨c, hn⟩ | ⟨_, _, _, _, hp', _⟩
  · simp only [Sys.apiStep, hp, Sys.stopStep, hg] at hn; cases hn; exact List.mem_cons_self ..
  · rw [hp] at hp'; cases hp'

/-- A step made by a caller in line 84. -/
theorem cancel_done {s s' : Sys} {e : SEv} (h : Sys.Step s e s') {i : Nat} {b : StopBy} (he : e.of = some (.api i)) (hp : s.api i = .stop .cancel b) :
    ∀ g, s.ctx = some g → s'.isDone g = true := by
  intro g hg
  rcases step_by_api h he with ⟨c, hn⟩ | ⟨_, _, _, _, hp', _⟩
  · exact (cancelling_done (.inr ⟨b, hp⟩) hn hg).1
  · rw [hp] at hp'; cases hp'

theorem running_count {s : Sys} (hz : s.runs.countP (·.pc.running) = 0) {g : Nat} {r : RunG} (hg : s.runs[g]? = some r) : r.pc.running = false := by
  have := List.countP_eq_zero.1 hz r (List.mem_of_getElem? hg)
  simpa using this

/-- The new steps into RequestStop past line 67. -/
theorem inStop_from {s s' : Sys} {e : SEv} (h : Sys.Step s e s') {i : Nat} (hs : inStop (s'.api i) = true) :
    inStop (s.api i) = true ∨ (e.of = some (.api i) ∧ s.stopped = false ∧ ∃ b, s.api i = .stop .swap b) := by
  rcases step_api h i with ⟨he, hn⟩ | ⟨_, hn⟩
  · generalize hq : s.api i = pc at hn
    generalize s'.api i = pc' at hn hs
    cases hn with
    | call c => cases c <;> cases hs
    | again b | unstarted b | cancel b => cases b <;> cases hs
    | swapStop b hb => exact .inr ⟨he, hb, b, rfl⟩
    | load | initZero | initSleep | stopLock | close | unlock => exact .inl rfl
    | _ => cases hs
  · rw [hn.more.2.2.2.2.2.2.2.1] at hs; exact .inl hs

theorem step_apartInv {s s' : Sys} {e : SEv} (h : Sys.Step s e s') (hi : s.Inv) (hc : CtxInv s) (ho : Opened s) (hl : ListenerInv s) (ha : Apart s)
    (ha' : Apart s') (hI : ApartInv s) : ApartInv s' := by
  have ef := step_effects h
  -- a caller in one of the functions, not in Start, excludes callers in Start
  have alone : ∀ {i j : Nat}, (s.api i).life = true → (s.api i).inStart = false → (s.api j).inStart = false := by
    intro i j h1 h2
    cases hj : (s.api j).inStart with
    | false => rfl
    | true =>
      have hne : j ≠ i := by rintro rfl; rw [hj] at h2; cases h2
      have := ha j i hne hj
      rw [h1] at this; cases this
  have noStart : ∀ {i : Nat}, (s.api i).life = true → (s.api i).inStart = false → ∀ j k r, s.api j ≠ .start k r := by
    intro i h1 h2 j k r hj
    have := alone (j := j) h1 h2
    rw [hj] at this; cases this
  have life_inStop : ∀ {pc : ApiPc}, inStop pc = true → pc.life = true ∧ pc.inStart = false := by
    intro pc hp; cases pc <;> first | exact ⟨rfl, rfl⟩ | cases hp
  -- `stopped` stays set
  have stays : ∀ {i : Nat}, (s.api i).life = true → (s.api i).inStart = false → s.stopped = true → s'.stopped = true := by
    intro i h1 h2 h3
    rcases ef.stopped with e | ⟨_, _, _, _, e⟩ | ⟨j, r, e, _⟩
    · rw [e]; exact h3
    · exact e
    · exact absurd e (noStart h1 h2 _ _ _)
  -- accept loops that run were running
  have back : ∀ {g : Nat} {r' : RunG}, s'.runs[g]? = some r' →
      (∃ r, s.runs[g]? = some r ∧ (r'.pc.running = true → r.pc.running = true) ∧ (r'.pc.initializing = true → r.pc.initializing = true)) ∨
      (s.runs[g]? = none ∧ ∃ j b, s.api j = .start .spawn b) := by
    intro g r' hg
    rcases step_run_back h hg with hb | ⟨r, hb, hn⟩ | ⟨hb, _⟩
    · exact .inl ⟨r', hb, id, id⟩
    · exact .inl ⟨r, hb, running_back hn, initializing_back hn⟩
    · refine .inr ⟨hb, ?_⟩
      rcases ef.runs with e | e
      · have h1 := List.getElem?_eq_none_iff.1 hb
        have h2 := (List.getElem?_eq_some_iff.1 hg).1
        omega
      · exact e
  have back' : ∀ {i : Nat}, (s.api i).life = true → (s.api i).inStart = false → ∀ {g : Nat} {r' : RunG}, s'.runs[g]? = some r' →
      ∃ r, s.runs[g]? = some r ∧ (r'.pc.running = true → r.pc.running = true) ∧ (r'.pc.initializing = true → r.pc.initializing = true) := by
    intro i h1 h2 g r' hg
    rcases back hg with e | ⟨_, j, b, e⟩
    · exact e
    · exact absurd e (noStart h1 h2 _ _ _)
  have notStarting : ∀ {i : Nat}, (s.api i).life = true → (s.api i).inStart = false → ∀ f : ApiPc → Nat, (∀ pc, pc.inStart = false → f pc = 0) → s.ofHolder f = 0 := by
    intro i h1 h2 f hf
    unfold Sys.ofHolder
    split
    · next j _ => exact hf _ (alone h1 h2)
    · rfl
  have starting0 : ∀ pc : ApiPc, pc.inStart = false → pc.starting = 0 := by intro pc hp; cases pc <;> first | rfl | cases hp
  have startingInit0 : ∀ pc : ApiPc, pc.inStart = false → pc.startingInit = 0 := by intro pc hp; cases pc <;> first | rfl | cases hp
  have inStop' : ∀ i, inStop (s'.api i) = true → s'.stopped = true := by
    intro i hs
    rcases inStop_from h hs with h1 | ⟨h1, h2, b, h3⟩
    · exact stays (life_inStop h1).1 (life_inStop h1).2 (hI.inStop i h1)
    · exact swap_stopped h h1 h3
  refine ⟨?_, inStop', ?_, ?_, ?_, ?_, ?_, ?_, ?_, ?_, ?_, ?_, ?_, ?_⟩
  · -- renewed
    intro i hr
    have key : (s.api i).renewed = true → s'.stopped = false := by
      intro h1
      rcases ef.stopped with e | ⟨j, b, e0, e1, e2⟩ | ⟨j, r, e, e2⟩
      · rw [e]; exact hI.renewed i h1
      · have hst : (s.api i).inStart = true := by
          revert h1; generalize s.api i = pc; intro h1
          cases pc <;> first | rfl | cases h1
        have hne : i ≠ j := by rintro rfl; rw [e1] at hst; cases hst
        have := ha i j hne hst
        rw [e1] at this; cases this
      · exact e2
    rcases step_api h i with ⟨he, hn⟩ | ⟨_, hn⟩
    · generalize hq : s.api i = pc at hn
      rw [hq] at key
      generalize s'.api i = pc' at hn hr
      cases hn with
      | call c => cases c <;> cases hr
      | again b | unstarted b | cancel b => cases b <;> cases hr
      | unstop r => exact unstop_stopped h he hq
      | derive | addWg | addInit | spawn => exact key rfl
      | _ => cases hr
    · rw [hn.more.1] at hr; exact key hr
  · -- once
    intro i j h1 h2
    rcases inStop_from h h1 with a1 | ⟨a1, a2, b, a3⟩ <;> rcases inStop_from h h2 with b1 | ⟨b1, b2, b', b3⟩
    · exact hI.once i j a1 b1
    · rw [hI.inStop i a1] at b2; cases b2
    · rw [hI.inStop j b1] at a2; cases a2
    · rw [a1] at b1; cases b1; rfl
  · -- stop
    intro hst hno g r' hg hr
    cases hs : s.stopped with
    | false =>
      exfalso
      rcases ef.stopped with e | ⟨j, b, e0, e1, e2⟩ | ⟨j, r, e, e2⟩
      · rw [e, hs] at hst; cases hst
      · rcases step_api h j with ⟨_, hn⟩ | ⟨hne, _⟩
        · rw [e1] at hn
          have hj := hno j
          generalize s'.api j = pc' at hn hj
          cases hn with
          | again _ hx => rw [hs] at hx; cases hx
          | swapStop => cases hj
        · exact hne e0
      · rw [hst] at e2; cases e2
    | true =>
      by_cases hx : ∃ i, inStop (s.api i) = true
      · obtain ⟨i, hx⟩ := hx
        obtain ⟨r, g1, g2, _⟩ := back' (life_inStop hx).1 (life_inStop hx).2 hg
        have hrun := g2 hr
        rcases step_api h i with ⟨he, hn⟩ | ⟨_, hn⟩
        · have hno := hno i
          generalize hq : s.api i = pc at hn
          rw [hq] at hx
          generalize s'.api i = pc' at hn hno
          have hlf : (s.api i).life = true ∧ (s.api i).inStart = false := by rw [hq]; exact life_inStop hx
          cases hn with
          | unstarted b hb =>
            exfalso
            have h0 := hi.started
            rw [hb, notStarting hlf.1 hlf.2 _ starting0] at h0
            have := running_count (s := s) (by simpa using h0) g1
            rw [hrun] at this; cases this
          | cancel b hb =>
            exact ⟨step_closed h (hI.pastClose i (by rw [hq]; rfl) g r g1 hrun), cancel_done h he hq g (hc.run g r g1 hrun)⟩
          | cancelNil b hb => exact absurd hb (hI.tearing i (by rw [hq]; rfl))
          | initReused b hb => exact absurd (hI.wokenInit i (by rw [hq]; rfl)) hb
          | load | initZero | initSleep | stopLock | close | unlock => cases hno
          | _ => cases hx
        · rw [← hn.more.2.2.2.2.2.2.2.1, hno i] at hx; cases hx
      · have hx : ∀ i, inStop (s.api i) = false := fun i => by
          cases hy : inStop (s.api i) with
          | false => rfl
          | true => exact absurd ⟨i, hy⟩ hx
        rcases back hg with ⟨r, g1, g2, _⟩ | ⟨_, j, b, e⟩
        · obtain ⟨c1, c2⟩ := hI.stop hs hx g r g1 (g2 hr)
          exact ⟨step_closed h c1, step_done h c2⟩
        · have := hI.renewed j (by rw [e]; rfl)
          rw [hs] at this; cases this
  · -- open
    intro hst g r' hg hr hcl
    have hcl' : g ∈ s.closes ∨ ∃ i b, s.api i = .stop .close b ∧ s'.api i = .stop .unlock b := by
      cases h with
      | @life _ c hn =>
        cases c with
        | api i c =>
          have hn : s.apiStep i c = .ok s' := hn
          unfold Sys.apiStep at hn
          cases hp : s.api i with
          | start k r =>
            rw [hp] at hn
            cases k <;> simp only [Sys.startStep, Sys.lockMu] at hn <;> (try split at hn) <;> cases hn <;> exact .inl hcl
          | stop k b =>
            rw [hp] at hn
            cases k <;> simp only [Sys.stopStep, Sys.lockMu] at hn
            case close => split at hn <;> cases hn <;> exact .inr ⟨i, b, hp, if_pos rfl⟩
            case init k => cases k <;> cases hn <;> exact .inl hcl
            all_goals
              (try split at hn) <;> cases hn
              all_goals exact .inl hcl
          | wait k r => rw [hp] at hn; cases k <;> cases hn <;> exact .inl hcl
          | restartInit k => rw [hp] at hn; cases k <;> cases hn <;> exact .inl hcl
          | finish =>
            rw [hp] at hn
            simp only at hn
            split at hn <;> cases hn <;> exact .inl hcl
          | call p =>
            rw [hp] at hn
            cases p with
            | ret v => cases hn; exact .inl hcl
            | _ => cases hn
          | idle => rw [hp] at hn; cases hn; exact .inl hcl
          | panicked w => rw [hp] at hn; cases hn; exact .inl hcl
        | run g' ok =>
          rcases step_listener' (.life hn) with ⟨_, e2, _⟩ | ⟨_, e2, _⟩ | ⟨_, _, _, _, _, e3⟩ | ⟨_, _, _, _, _, _, e2⟩
          · rw [e2] at hcl; exact .inl hcl
          · rw [e2] at hcl; exact .inl hcl
          · obtain ⟨r0, r1, x1, ⟨x2, _⟩, x3⟩ := runStep_runs hn
            exfalso
            have : s'.runs[g']? = some r1 := by rw [x3]; exact List.getElem?_set_self (List.getElem?_eq_some_iff.1 x1).1
            rw [e3, x1] at this; cases this
            cases hp : r0.pc <;> rw [hp] at x2 <;> simp [RunPc.next] at x2
          · rw [e2] at hcl; exact .inl hcl
        | conn c =>
          rcases step_listener' (.life hn) with ⟨_, e2, _⟩ | ⟨_, e2, _⟩ | ⟨_, _, _, _, e2, _⟩ | ⟨_, _, _, _, _, _, e2⟩
          · rw [e2] at hcl; exact .inl hcl
          · rw [e2] at hcl; exact .inl hcl
          · exfalso
            simp only [Sys.next, Sys.connStep] at hn
            have hne : ∀ {g : Nat} {l : List Nat}, l ≠ g :: l := fun h => by have := congrArg List.length h; simp at this
            split at hn
            · cases hn
            split at hn
            · cases hn; exact hne e2
            · cases hn
            · cases hn
            · unfold Sys.lockMu at hn; split at hn <;> cases hn; exact hne e2
            · split at hn <;> cases hn; exact hne e2
            · cases he : s.activeDone <;> rw [he] at hn <;> cases hn
              unfold Sys.activeDone at he; split at he <;> cases he; exact hne e2
            · cases he : s.wgDone <;> rw [he] at hn <;> cases hn
              unfold Sys.wgDone at he; split at he <;> cases he <;> exact hne e2
            · cases hn; exact hne e2
            · cases hn
          · rw [e2] at hcl; exact .inl hcl
        | parentCancel => cases hn; exact .inl hcl
      | _ => exact .inl hcl
    rcases hcl' with hcl | ⟨i, b, h1, h2⟩
    · cases hs : s.stopped with
      | false =>
        rcases back hg with ⟨r, g1, g2, _⟩ | ⟨g1, _⟩
        · exact hI.open' hs g r g1 (g2 hr) hcl
        · obtain ⟨r, h1, _⟩ := hl.closed g hcl
          rw [g1] at h1; cases h1
      | true =>
        rcases ef.stopped with e | ⟨j, b, e0, e1, e2⟩ | ⟨j, b, e1, e2⟩
        · rw [e, hs] at hst; cases hst
        · rw [hst] at e2; cases e2
        · rcases back hg with ⟨r, g1, g2, _⟩ | ⟨g1, _⟩
          · have := starting_alone hi (i := j) (by rw [e1]; rfl) g1
            rw [g2 hr] at this; cases this
          · obtain ⟨r, h1, _⟩ := hl.closed g hcl
            rw [g1] at h1; cases h1
    · have := inStop' i (by rw [h2]; rfl)
      rw [hst] at this; cases this
  · -- pastInit
    intro i hp g r' hg
    cases hini : r'.pc.initializing with
    | false => rfl
    | true =>
      exfalso
      have key : (s.api i).pastInit = true → False := by
        intro h1
        have hlf : (s.api i).life = true ∧ (s.api i).inStart = false := by
          revert h1; generalize s.api i = pc; intro h1
          cases pc <;> first | exact ⟨rfl, rfl⟩ | cases h1
        obtain ⟨r, g1, _, g3⟩ := back' hlf.1 hlf.2 hg
        have := hI.pastInit i h1 g r g1
        rw [g3 hini] at this; cases this
      rcases step_api h i with ⟨he, hn⟩ | ⟨_, hn⟩
      · generalize hq : s.api i = pc at hn
        rw [hq] at key
        generalize s'.api i = pc' at hn hp
        cases hn with
        | call c => cases c <;> cases hp
        | again b | unstarted b | cancel b => cases b <;> cases hp
        | initZero k b hk hz =>
          have hlf : (s.api i).life = true ∧ (s.api i).inStart = false := by rw [hq]; exact ⟨rfl, rfl⟩
          obtain ⟨r, g1, _, g3⟩ := back' hlf.1 hlf.2 hg
          have h0 := hi.init
          rw [hz, notStarting hlf.1 hlf.2 _ startingInit0] at h0
          have h1 : s.runs.countP (·.pc.initializing) = 0 := by omega
          have := List.countP_eq_zero.1 h1 r (List.mem_of_getElem? g1)
          exact this (g3 hini)
        | stopLock | close | unlock => exact key rfl
        | _ => cases hp
      · rw [hn.more.2.2.1] at hp; exact key hp
  · -- pastClose
    intro i hp g r' hg hr
    have key : (s.api i).pastClose = true → g ∈ s'.closes := by
      intro h1
      have hlf : (s.api i).life = true ∧ (s.api i).inStart = false := by
        revert h1; generalize s.api i = pc; intro h1
        cases pc <;> first | exact ⟨rfl, rfl⟩ | cases h1
      obtain ⟨r, g1, g2, _⟩ := back' hlf.1 hlf.2 hg
      exact step_closed h (hI.pastClose i h1 g r g1 (g2 hr))
    rcases step_api h i with ⟨he, hn⟩ | ⟨_, hn⟩
    · generalize hq : s.api i = pc at hn
      rw [hq] at key
      generalize s'.api i = pc' at hn hp
      cases hn with
      | call c => cases c <;> cases hp
      | again b | unstarted b | cancel b => cases b <;> cases hp
      | close b =>
        have hlf : (s.api i).life = true ∧ (s.api i).inStart = false := by rw [hq]; exact ⟨rfl, rfl⟩
        obtain ⟨r, g1, g2, _⟩ := back' hlf.1 hlf.2 hg
        have h0 := hI.pastInit i (by rw [hq]; rfl) g r g1
        have hop : opened r.pc = true := by
          revert h0; generalize r.pc = pc; intro h0
          cases pc <;> first | rfl | cases h0
        rcases ho g r g1 hop (g2 hr) with h1 | h1
        · exact close_closes h he hq g h1
        · exact step_closed h h1
      | unlock => exact key rfl
      | _ => cases hp
    · rw [hn.more.2.2.2.1] at hp; exact key hp
  · -- tearing
    intro i hp
    have key : s.ctx ≠ none → s'.ctx ≠ none := by
      intro h1
      rcases ef.ctx with e | e
      · rw [e]; exact h1
      · exact e
    rcases step_api h i with ⟨he, hn⟩ | ⟨_, hn⟩
    · generalize hq : s.api i = pc at hn
      generalize s'.api i = pc' at hn hp
      have key' : pc.tearing = true → s'.ctx ≠ none := fun h => key (hI.tearing i (by rw [hq]; exact h))
      cases hn with
      | call c => cases c <;> cases hp
      | again b | unstarted b | cancel b => cases b <;> cases hp
      | load b hb =>
        have hlf : (s.api i).life = true ∧ (s.api i).inStart = false := by rw [hq]; exact ⟨rfl, rfl⟩
        have h0 := hi.started
        rw [hb, notStarting hlf.1 hlf.2 _ starting0] at h0
        have h1 : 0 < s.runs.countP (·.pc.running) := by simp at h0; omega
        obtain ⟨r, h2, h3⟩ := List.countP_pos_iff.1 h1
        obtain ⟨g, hg⟩ := List.mem_iff_getElem?.1 h2
        exact key (by rw [hc.run g r hg h3]; intro h; cases h)
      | initZero | initSleep | stopLock | close | unlock => exact key' rfl
      | _ => cases hp
    · rw [hn.more.2.1] at hp; exact key (hI.tearing i hp)
  · -- wokenWg
    intro i hp
    rcases (step_woken h i).1 hp with h1 | h1
    · have h0 := hI.wokenWg i h1
      have hlf : (s.api i).life = true ∧ (s.api i).inStart = false := by
        revert h1; generalize s.api i = pc; intro h1
        cases pc <;> first | exact ⟨rfl, rfl⟩ | cases h1
      rcases ef.wg with e | ⟨j, r, e⟩ | ⟨g, r, e1, e2⟩
      · omega
      · exact absurd e (noStart hlf.1 hlf.2 _ _ _)
      · have := (wg_zero hi h0).1 r (List.mem_of_getElem? e1)
        rw [e2] at this; cases this
    · exact h1
  · -- wokenInit
    intro i hp
    rcases (step_woken h i).2 hp with h1 | h1
    · have h0 := hI.wokenInit i h1
      have hlf : (s.api i).life = true ∧ (s.api i).inStart = false := by
        revert h1; generalize s.api i = pc; intro h1
        cases pc <;> first | exact ⟨rfl, rfl⟩ | cases h1
      rcases ef.init with e | ⟨j, r, e⟩
      · omega
      · exact absurd e (noStart hlf.1 hlf.2 _ _ _)
    · exact h1
  · -- between
    intro i hp
    have key : (s.api i).between = true → s'.started = false := by
      intro h1
      have h0 := hI.between i h1
      rcases ef.started with e | e | ⟨j, r, e1, e2⟩
      · rw [e]; exact h0
      · exact e
      · by_cases hij : j = i
        · subst hij
          exfalso
          rcases step_api h j with ⟨_, hn⟩ | ⟨hne, _⟩
          · rw [e2] at hn
            generalize s'.api j = pc' at hn hp
            cases hn <;> cases hp
          · exact hne e1
        · have := ha j i hij (by rw [e2]; rfl)
          have hlf : (s.api i).life = true := by
            revert h1; generalize s.api i = pc; intro h1
            cases pc <;> first | rfl | cases h1
          rw [hlf] at this; cases this
    rcases step_api h i with ⟨he, hn⟩ | ⟨_, hn⟩
    · generalize hq : s.api i = pc at hn
      rw [hq] at key
      generalize s'.api i = pc' at hn hp
      have wz : ∀ {k : WaitPc} {r : Bool}, s.api i = .wait k r → s.wg = 0 → s'.started = false := by
        intro k r hq hz
        have hlf : (s.api i).life = true ∧ (s.api i).inStart = false := by rw [hq]; exact ⟨rfl, rfl⟩
        have h0 := hi.started
        rw [notStarting hlf.1 hlf.2 _ starting0] at h0
        have h1 : s.runs.countP (·.pc.running) = 0 := by
          rw [List.countP_eq_zero]
          intro r hr
          rw [(wg_zero hi hz).1 r hr]; decide
        rw [h1] at h0
        have h2 : s.started = false := by
          cases hst : s.started with
          | false => rfl
          | true => rw [hst] at h0; simp at h0
        rcases ef.started with e | e | ⟨j, r, e1, e2⟩
        · rw [e]; exact h2
        · exact e
        · exact absurd e2 (noStart hlf.1 hlf.2 _ _ _)
      cases hn with
      | call c => cases c <;> cases hp
      | again b | unstarted b | cancel b | swapStop b | load b | initSleep b | stopLock b | close b | unlock b => cases b <;> first | exact key rfl | cases hp
      | initZero k b => cases b <;> first | exact key rfl | cases hp
      | startLock r => cases r <;> first | exact key rfl | cases hp
      | waitZero k r hk hz => exact wz hq hz
      | _ => cases hp
    · rw [hn.more.2.2.2.2.1] at hp; exact key hp
  · -- waits
    intro i k hp
    have key : (s.api i).life = true → (s.api i).inStart = false → s.stopped = true → s'.stopped = true := fun a b c => stays a b c
    rcases step_api h i with ⟨he, hn⟩ | ⟨_, hn⟩
    · generalize hq : s.api i = pc at hn
      rw [hq] at key
      generalize s'.api i = pc' at hn hp
      cases hn with
      | call c => cases c <;> cases hp
      | again b hb => exact key rfl rfl hb
      | unstarted b | cancel b => exact key rfl rfl (hI.inStop i (by rw [hq]; rfl))
      | waitSleep r => cases hp; exact key rfl rfl (hI.waits i _ hq)
      | _ => cases hp
    · obtain ⟨k, hk⟩ := hn.more.2.2.2.2.2.2.2.2.2.2 k hp
      rw [hk] at key
      exact key rfl rfl (hI.waits i _ hk)
  · -- twice
    intro i hp
    rcases step_api h i with ⟨he, hn⟩ | ⟨_, hn⟩
    · generalize hq : s.api i = pc at hn
      rw [hp] at hn
      generalize hpc' : ApiPc.start .panicUnlock true = pc' at hn
      cases hn with
      | call c => cases c <;> cases hpc'
      | again b | unstarted b | cancel b => cases b <;> cases hpc'
      | twice r hb => cases hpc'; rw [hI.between i (by rw [hq]; rfl)] at hb; cases hb
      | _ => cases hpc'
    · exact hI.twice i (hn.more.2.2.2.2.2.2.2.2.1 hp)
  · -- reused
    intro i hp
    rcases step_api h i with ⟨he, hn⟩ | ⟨_, hn⟩
    · generalize hq : s.api i = pc at hn
      rw [hp] at hn
      generalize hpc' : ApiPc.panicked .waitGroupReused = pc' at hn
      cases hn with
      | call c => cases c <;> cases hpc'
      | again b | unstarted b | cancel b => cases b <;> cases hpc'
      | initReused b hb => exact hb (hI.wokenInit i (by rw [hq]; rfl))
      | waitReused r hb => exact hb (hI.wokenWg i (by rw [hq]; rfl))
      | restartReused hb => exact hb (hI.wokenInit i (by rw [hq]; rfl))
      | _ => cases hpc'
    · exact hI.reused i (hn.more.2.2.2.2.2.2.2.2.2.1 hp)

end KM
