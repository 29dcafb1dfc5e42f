import Verif.FairEnds
/-
The steps of the callers of exported functions, and what steps do to the shared variables.
-/
namespace KM
open Props

/-- In Start, RequestStop, WaitForTermination or Restart. -/
def ApiPc.life : ApiPc → Bool
  | .start _ _ | .stop _ _ | .wait _ _ | .restartInit _ => true
  | _ => false

/-- In Start, called by a test or by Restart. -/
def ApiPc.inStart : ApiPc → Bool
  | .start _ _ => true
  | _ => false

/-- While a caller is in Start, also as part of Restart, no other caller is in Start, RequestStop, WaitForTermination or Restart. -/
def Apart (s : Sys) : Prop := ∀ i j, i ≠ j → (s.api i).inStart = true → (s.api j).life = false

/-! ### Invariants of all runs -/

/-- The listener of an accept loop that has opened it is in `km.listener` or closed. -/
def Opened (s : Sys) : Prop := ∀ (g : Nat) (r : RunG), s.runs[g]? = some r → opened r.pc = true → r.pc.running = true → s.listener = some g ∨ g ∈ s.closes

/-- Asleep in a wait for `km.wg`. -/
def ApiPc.onWg : ApiPc → Bool
  | .wait .asleep _ => true
  | _ => false

/-- Asleep in a wait for `km.initializing`. -/
def ApiPc.onInit : ApiPc → Bool
  | .stop (.init .asleep) _ | .restartInit .asleep => true
  | _ => false

/-- Nobody sleeps on a counter that is zero. -/
def Asleep (s : Sys) : Prop := ∀ j, ((s.api j).onWg = true → 0 < s.wg) ∧ ((s.api j).onInit = true → 0 < s.init)

/-- What a step does to one accept loop. -/
theorem step_run_back {s s' : Sys} {e : SEv} (h : Sys.Step s e s') {g : Nat} {r' : RunG} (hg : s'.runs[g]? = some r') :
    s.runs[g]? = some r' ∨ (∃ r, s.runs[g]? = some r ∧ r'.pc ∈ r.pc.next) ∨ (s.runs[g]? = none ∧ r' = ⟨.listen, 0⟩) := by
  rcases step_runs h with e | ⟨g1, r1, r2, h1, hn, e⟩ | e <;> rw [e] at hg
  · exact .inl hg
  · by_cases eq : g1 = g
    · subst eq
      rw [List.getElem?_set_self (List.getElem?_eq_some_iff.1 h1).1] at hg; cases hg
      exact .inr (.inl ⟨r1, h1, hn.1⟩)
    · rw [List.getElem?_set_ne eq] at hg; exact .inl hg
  · rcases Nat.lt_or_ge g s.runs.length with hl | hl
    · rw [List.getElem?_append_left hl] at hg; exact .inl hg
    · rw [List.getElem?_append_right hl] at hg
      refine .inr (.inr ⟨List.getElem?_eq_none hl, ?_⟩)
      cases hx : g - s.runs.length with
      | zero => rw [hx] at hg; cases hg; rfl
      | succ => rw [hx] at hg; cases hg

theorem running_back {pc pc' : RunPc} (h : pc' ∈ pc.next) (hr : pc'.running = true) : pc.running = true := by
  cases pc <;> simp only [RunPc.next, List.mem_cons, List.not_mem_nil, or_false] at h <;> first | rfl | (subst h; cases hr)

theorem opened_back {pc pc' : RunPc} (h : pc' ∈ pc.next) (ho : opened pc' = true) : opened pc = true ∨ (pc = .setListener ∧ pc' = .initDone) := by
  cases pc <;> simp only [RunPc.next, List.mem_cons, List.not_mem_nil, or_false] at h <;> first | exact .inl rfl | skip
  · subst h; cases ho
  · subst h; exact .inr ⟨rfl, rfl⟩

theorem initializing_back {pc pc' : RunPc} (h : pc' ∈ pc.next) (ho : pc'.initializing = true) : pc.initializing = true := by
  cases pc <;> simp only [RunPc.next, List.mem_cons, List.not_mem_nil, or_false] at h <;> first | rfl | (subst h; cases ho) | (rcases h with h | h <;> subst h <;> cases ho)

/-- Who empties `km.listener`: line 53 of `Start` and line 78 of `RequestStop`; who fills it: an accept loop. -/
theorem step_listener' {s s' : Sys} {e : SEv} (h : Sys.Step s e s') :
    (s'.listener = s.listener ∧ s'.closes = s.closes ∧ ∀ (g : Nat) (r : RunG), s.runs[g]? = some r → r.pc = .setListener → s'.runs[g]? = some r) ∨
    ((∃ i r, s.api i = .start .reset r) ∧ s'.closes = s.closes ∧ s'.runs = s.runs) ∨
    (∃ g, (∃ i b, s.api i = .stop .close b) ∧ s.listener = some g ∧ s'.listener = none ∧ s'.closes = g :: s.closes ∧ s'.runs = s.runs) ∨
    (∃ (g : Nat) (r : RunG), s.runs[g]? = some r ∧ r.pc = .setListener ∧ s'.runs = s.runs.set g { r with pc := .initDone } ∧ s'.listener = some g ∧ s'.closes = s.closes) := by
  cases h with
  | @life _ c hn =>
    cases c with
    | api i c =>
      simp only [Sys.next, Sys.apiStep] at hn
      have keep : ∀ {l : List RunG}, (l = s.runs ∨ l = s.runs ++ [⟨.listen, 0⟩]) → ∀ (g : Nat) (r : RunG), s.runs[g]? = some r → r.pc = .setListener → l[g]? = some r := by
        rintro l (rfl | rfl) g r hg _
        · exact hg
        · rw [List.getElem?_append_left (List.getElem?_eq_some_iff.1 hg).1]; exact hg
      split at hn
      · cases hn; exact .inl ⟨rfl, rfl, keep (.inl rfl)⟩
      · cases hn; exact .inl ⟨rfl, rfl, keep (.inl rfl)⟩
      · next k r hk =>
        cases k
        case reset => cases hn; exact .inr (.inl ⟨⟨i, r, hk⟩, rfl, rfl⟩)
        all_goals
          simp only [Sys.startStep, Sys.lockMu] at hn
          (try split at hn) <;> cases hn
          all_goals exact .inl ⟨rfl, rfl, keep (by first | exact .inl rfl | exact .inr rfl)⟩
      · next k b hk =>
        cases k
        case close =>
          simp only [Sys.stopStep] at hn
          split at hn
          · next g hg => cases hn; exact .inr (.inr (.inl ⟨g, ⟨i, b, hk⟩, hg, rfl, rfl, rfl⟩))
          · cases hn; exact .inl ⟨rfl, rfl, keep (.inl rfl)⟩
        case init k => cases k <;> cases hn <;> exact .inl ⟨rfl, rfl, keep (.inl rfl)⟩
        all_goals
          simp only [Sys.stopStep, Sys.lockMu] at hn
          (try split at hn) <;> cases hn
          all_goals exact .inl ⟨rfl, rfl, keep (.inl rfl)⟩
      · next k r hk => cases k <;> cases hn <;> exact .inl ⟨rfl, rfl, keep (.inl rfl)⟩
      · next k hk => cases k <;> cases hn <;> exact .inl ⟨rfl, rfl, keep (.inl rfl)⟩
      · split at hn <;> cases hn <;> exact .inl ⟨rfl, rfl, keep (.inl rfl)⟩
      · cases hn; exact .inl ⟨rfl, rfl, keep (.inl rfl)⟩
      · cases hn
      · cases hn
    | run g ok =>
      simp only [Sys.next, Sys.runStep] at hn
      split at hn
      · cases hn
      next r hr =>
      have keep : ∀ {pc : RunPc}, r.pc ≠ .setListener → ∀ {x : RunG} (g' : Nat) (r' : RunG), s.runs[g']? = some r' → r'.pc = .setListener → (s.runs.set g x)[g']? = some r' := by
        intro pc hp x g' r' h1 h2
        rw [List.getElem?_set_ne]
        · exact h1
        · rintro rfl; rw [hr] at h1; cases h1; exact hp h2
      cases hp : r.pc <;> simp only [hp, Sys.lockMu] at hn
      case setListener => cases hn; exact .inr (.inr (.inr ⟨g, r, hr, hp, rfl, rfl, rfl⟩))
      case initDone =>
        cases he : s.initDone <;> rw [he] at hn <;> cases hn
        rename_i s1
        refine .inl ?_
        have hx : s1.listener = s.listener ∧ s1.closes = s.closes ∧ s1.runs = s.runs := by
          unfold Sys.initDone at he
          split at he <;> cases he <;> exact ⟨rfl, rfl, rfl⟩
        refine ⟨hx.1, hx.2.1, ?_⟩
        show ∀ (g' : Nat) (r' : RunG), _ → _ → (s1.runs.set g _)[g']? = _
        rw [hx.2.2]; exact keep (pc := .accept) (by rw [hp]; decide)
      case wgDone =>
        cases he : s.wgDone <;> rw [he] at hn <;> cases hn
        rename_i s1
        refine .inl ?_
        have hx : s1.listener = s.listener ∧ s1.closes = s.closes ∧ s1.runs = s.runs := by
          unfold Sys.wgDone at he
          split at he <;> cases he <;> exact ⟨rfl, rfl, rfl⟩
        refine ⟨hx.1, hx.2.1, ?_⟩
        show ∀ (g' : Nat) (r' : RunG), _ → _ → (s1.runs.set g _)[g']? = _
        rw [hx.2.2]; exact keep (pc := .accept) (by rw [hp]; decide)
      case accept =>
        split at hn
        · cases hn; exact .inl ⟨rfl, rfl, keep (pc := .accept) (by rw [hp]; decide)⟩
        · split at hn <;> cases hn
          exact .inl ⟨rfl, rfl, keep (pc := .accept) (by rw [hp]; decide)⟩
      all_goals
        (try split at hn) <;> cases hn
        all_goals exact .inl ⟨rfl, rfl, keep (pc := .accept) (by rw [hp]; decide)⟩
    | conn c =>
      have hr := connStep_runs hn
      have hx : s'.listener = s.listener ∧ s'.closes = s.closes := by
        simp only [Sys.next, Sys.connStep] at hn
        split at hn
        · cases hn
        split at hn
        · cases hn; exact ⟨rfl, rfl⟩
        · cases hn
        · cases hn
        · unfold Sys.lockMu at hn; split at hn <;> cases hn; exact ⟨rfl, rfl⟩
        · split at hn <;> cases hn; exact ⟨rfl, rfl⟩
        · unfold Sys.activeDone at hn
          cases ha : s.active <;> rw [ha] at hn <;> cases hn; exact ⟨rfl, rfl⟩
        · cases he : s.wgDone <;> rw [he] at hn <;> cases hn
          rename_i s1 _
          unfold Sys.wgDone at he
          split at he <;> cases he <;> exact ⟨rfl, rfl⟩
        · cases hn; exact ⟨rfl, rfl⟩
        · cases hn
      exact .inl ⟨hx.1, hx.2, fun g r h _ => by rw [hr]; exact h⟩
    | parentCancel => cases hn; exact .inl ⟨rfl, rfl, fun _ _ h _ => h⟩
  | _ => exact .inl ⟨rfl, rfl, fun _ _ h _ => h⟩

theorem step_opened {s s' : Sys} {e : SEv} (h : Sys.Step s e s') (hi : s.Inv) (ho : Opened s) : Opened s' := by
  intro g r' hg h1 h2
  rcases step_listener' h with ⟨e1, e2, e3⟩ | ⟨⟨i, b, e0⟩, e2, e3⟩ | ⟨g', _, e0, e1, e2, e3⟩ | ⟨g', r, e0, e1, e2, e3, e4⟩
  · rw [e1, e2]
    rcases step_run_back h hg with hb | ⟨r, hb, hn⟩ | ⟨_, rfl⟩
    · exact ho g r' hb h1 h2
    · rcases opened_back hn h1 with h3 | ⟨h3, h4⟩
      · exact ho g r hb h3 (running_back hn h2)
      · have := e3 g r hb h3
        rw [hg] at this; cases this
        rw [h3] at h4; cases h4
    · cases h1
  · rw [e3] at hg
    have := starting_alone hi (i := i) (by rw [e0]; rfl) hg
    rw [this] at h2; cases h2
  · rw [e3] at hg
    rw [e2]
    rcases ho g r' hg h1 h2 with h3 | h3
    · rw [e0] at h3; cases h3; exact .inr (List.mem_cons_self ..)
    · exact .inr (List.mem_cons_of_mem _ h3)
  · rw [e3, e4]
    left
    have hg' : s'.runs[g']? = some { r with pc := .initDone } := by rw [e2]; exact List.getElem?_set_self (List.getElem?_eq_some_iff.1 e0).1
    rw [running_unique (h.inv hi) hg' hg rfl h2]

/-! ### How callers go on -/

/-- The steps of a caller, with the conditions on the state in which they are made. -/
inductive ApiNext (s : Sys) : ApiPc → ApiPc → Prop where
  | call (c : Call) : ApiNext s .idle c.entry
  | recover (why : Panic) : ApiNext s (.panicked why) .idle
  | startLock (r : Bool) (h : s.mu = none) : ApiNext s (.start .lock r) (.start .swap r)
  | twice (r : Bool) (h : s.started = true) : ApiNext s (.start .swap r) (.start .panicUnlock r)
  | swapStart (r : Bool) (h : s.started = false) : ApiNext s (.start .swap r) (.start .reset r)
  | panicUnlock (r : Bool) : ApiNext s (.start .panicUnlock r) (.panicked .startTwice)
  | reset (r : Bool) : ApiNext s (.start .reset r) (.start .unstop r)
  | unstop (r : Bool) : ApiNext s (.start .unstop r) (.start .derive r)
  | derive (r : Bool) : ApiNext s (.start .derive r) (.start .addWg r)
  | addWg (r : Bool) : ApiNext s (.start .addWg r) (.start .addInit r)
  | addInit (r : Bool) : ApiNext s (.start .addInit r) (.start .spawn r)
  | spawn (r : Bool) : ApiNext s (.start .spawn r) (.start .unlock r)
  | started : ApiNext s (.start .unlock false) .idle
  | restarted : ApiNext s (.start .unlock true) (.restartInit .enter)
  | again (b : StopBy) (h : s.stopped = true) : ApiNext s (.stop .swap b) b.next
  | swapStop (b : StopBy) (h : s.stopped = false) : ApiNext s (.stop .swap b) (.stop .load b)
  | load (b : StopBy) (h : s.started = true) : ApiNext s (.stop .load b) (.stop (.init .enter) b)
  | unstarted (b : StopBy) (h : s.started = false) : ApiNext s (.stop .load b) b.next
  | initZero (k : WaitPc) (b : StopBy) (hk : k ≠ .asleep) (h : s.init = 0) : ApiNext s (.stop (.init k) b) (.stop .lock b)
  | initSleep (b : StopBy) (h : s.init ≠ 0) : ApiNext s (.stop (.init .enter) b) (.stop (.init .asleep) b)
  | initReused (b : StopBy) (h : s.init ≠ 0) : ApiNext s (.stop (.init .woken) b) (.panicked .waitGroupReused)
  | stopLock (b : StopBy) (h : s.mu = none) : ApiNext s (.stop .lock b) (.stop .close b)
  | close (b : StopBy) : ApiNext s (.stop .close b) (.stop .unlock b)
  | unlock (b : StopBy) : ApiNext s (.stop .unlock b) (.stop .cancel b)
  | cancel (b : StopBy) (h : s.ctx ≠ none) : ApiNext s (.stop .cancel b) b.next
  | cancelNil (b : StopBy) (h : s.ctx = none) : ApiNext s (.stop .cancel b) (.panicked .nilCancel)
  | waitZero (k : WaitPc) (r : Bool) (hk : k ≠ .asleep) (h : s.wg = 0) : ApiNext s (.wait k r) (.stop .swap (if r then .restartWait else .wait))
  | waitSleep (r : Bool) (h : s.wg ≠ 0) : ApiNext s (.wait .enter r) (.wait .asleep r)
  | waitReused (r : Bool) (h : s.wg ≠ 0) : ApiNext s (.wait .woken r) (.panicked .waitGroupReused)
  | restartZero (k : WaitPc) (hk : k ≠ .asleep) (h : s.init = 0) : ApiNext s (.restartInit k) .idle
  | restartSleep (h : s.init ≠ 0) : ApiNext s (.restartInit .enter) (.restartInit .asleep)
  | restartReused (h : s.init ≠ 0) : ApiNext s (.restartInit .woken) (.panicked .waitGroupReused)
  | finish (h : s.ctx ≠ none) : ApiNext s .finish .idle
  | finishNil (h : s.ctx = none) : ApiNext s .finish (.panicked .nilCancel)
  | ret : ApiNext s (.call (.ret ())) .idle
  | act {a : Act} {f : a.Resp → Prog Unit} (r : a.Resp) : ApiNext s (.call (.act a f)) (.call (f r))

theorem apiStep_next {s s' : Sys} {i : Nat} {c : Call} (hn : s.apiStep i c = .ok s') : ApiNext s (s.api i) (s'.api i) := by
  have self : ∀ (t : Sys) (pc : ApiPc), (t.setApi i pc).api i = pc := fun t pc => if_pos rfl
  unfold Sys.apiStep at hn
  cases hp : s.api i with
  | idle => rw [hp] at hn; cases hn; rw [self]; exact .call c
  | panicked w => rw [hp] at hn; cases hn; rw [self]; exact .recover w
  | start k r =>
    rw [hp] at hn
    cases k <;> simp only [Sys.startStep, Sys.lockMu] at hn
    case lock => split at hn <;> cases hn; rw [self]; exact .startLock r ‹_›
    case swap =>
      split at hn <;> cases hn <;> rw [self]
      · exact .twice r ‹_›
      · exact .swapStart r (Bool.not_eq_true _ ▸ ‹_›)
    case panicUnlock => cases hn; rw [self]; exact .panicUnlock r
    case reset => cases hn; rw [self]; exact .reset r
    case unstop => cases hn; rw [self]; exact .unstop r
    case derive => cases hn; rw [self]; exact .derive r
    case addWg => cases hn; rw [self]; exact .addWg r
    case addInit => cases hn; rw [self]; exact .addInit r
    case spawn => cases hn; rw [self]; exact .spawn r
    case unlock => cases hn; rw [self]; cases r; exact .started; exact .restarted
  | stop k b =>
    rw [hp] at hn
    cases k <;> simp only [Sys.stopStep, Sys.lockMu] at hn
    case swap =>
      cases hn; rw [self]
      cases h : s.stopped
      · exact .swapStop b h
      · exact .again b h
    case load =>
      cases hn; rw [self]
      cases h : s.started
      · exact .unstarted b h
      · exact .load b h
    case init k =>
      cases k <;> cases hn <;> rw [self] <;> split
      · exact .initZero _ b (by decide) ‹_›
      · exact .initSleep b ‹_›
      · exact .initZero _ b (by decide) ‹_›
      · exact .initReused b ‹_›
    case lock => split at hn <;> cases hn; rw [self]; exact .stopLock b ‹_›
    case close => split at hn <;> cases hn <;> rw [self] <;> exact .close b
    case unlock => cases hn; rw [self]; exact .unlock b
    case cancel =>
      split at hn <;> cases hn <;> rw [self]
      · exact .cancel b (by simp [*])
      · exact .cancelNil b ‹_›
  | wait k r =>
    rw [hp] at hn
    cases k <;> cases hn <;> rw [self] <;> split
    · exact .waitZero _ r (by decide) ‹_›
    · exact .waitSleep r ‹_›
    · exact .waitZero _ r (by decide) ‹_›
    · exact .waitReused r ‹_›
  | restartInit k =>
    rw [hp] at hn
    cases k <;> cases hn <;> rw [self] <;> split
    · exact .restartZero _ (by decide) ‹_›
    · exact .restartSleep ‹_›
    · exact .restartZero _ (by decide) ‹_›
    · exact .restartReused ‹_›
  | finish =>
    rw [hp] at hn
    simp only at hn
    split at hn <;> cases hn <;> rw [self]
    · exact .finish (by simp [*])
    · exact .finishNil ‹_›
  | call p =>
    rw [hp] at hn
    cases p with
    | ret v => cases hn; rw [self]; exact .ret
    | _ => cases hn

/-- Every caller makes a step, or stays where it is, except that it may be woken. -/
theorem step_api {s s' : Sys} {e : SEv} (h : Sys.Step s e s') (i : Nat) :
    (e.of = some (.api i) ∧ ApiNext s (s.api i) (s'.api i)) ∨ (e.of ≠ some (.api i) ∧ Woken (s.api i) (s'.api i)) := by
  by_cases he : e.of = some (.api i)
  · refine .inl ⟨he, ?_⟩
    rcases step_by_api h he with ⟨c, hn⟩ | ⟨a, f, r, w, hp, _, rfl⟩
    · exact apiStep_next hn
    · rw [hp, show ((({ s with ds := w.ds, clock := w.clock } : Sys).setApi i (.call (f r))).api i) = .call (f r) from if_pos rfl]
      exact .act r
  · exact .inr ⟨he, step_api_other h he⟩

/-! ### What steps do to the shared variables -/

structure Effects (s : Sys) (e : SEv) (s' : Sys) : Prop where
  stopped : s'.stopped = s.stopped ∨ (∃ i b, e.of = some (.api i) ∧ s.api i = .stop .swap b ∧ s'.stopped = true) ∨
    (∃ i r, s.api i = .start .unstop r ∧ s'.stopped = false)
  started : s'.started = s.started ∨ s'.started = false ∨ ∃ i r, e.of = some (.api i) ∧ s.api i = .start .swap r
  ctx : s'.ctx = s.ctx ∨ s'.ctx ≠ none
  wg : s'.wg ≤ s.wg ∨ (∃ i r, s.api i = .start .addWg r) ∨ ∃ (g : Nat) (r : RunG), s.runs[g]? = some r ∧ r.pc = .addWg
  init : s'.init ≤ s.init ∨ ∃ i r, s.api i = .start .addInit r
  runs : s'.runs.length = s.runs.length ∨ ∃ i r, s.api i = .start .spawn r

theorem Effects.same {s s' : Sys} {e : SEv} (h1 : s'.stopped = s.stopped) (h2 : s'.started = s.started) (h3 : s'.ctx = s.ctx) (h4 : s'.wg = s.wg)
    (h5 : s'.init = s.init) (h6 : s'.runs = s.runs) : Effects s e s' :=
  ⟨.inl h1, .inl h2, .inl h3, .inl (Nat.le_of_eq h4), .inl (Nat.le_of_eq h5), .inl (by rw [h6])⟩

theorem apiStep_effects {s s' : Sys} {i : Nat} {c : Call} (hn : s.apiStep i c = .ok s') : Effects s (.life (.api i c)) s' := by
  unfold Sys.apiStep at hn
  cases hp : s.api i with
  | idle => rw [hp] at hn; cases hn; exact .same rfl rfl rfl rfl rfl rfl
  | panicked w => rw [hp] at hn; cases hn; exact .same rfl rfl rfl rfl rfl rfl
  | start k r =>
    rw [hp] at hn
    cases k <;> simp only [Sys.startStep, Sys.lockMu] at hn
    case swap => split at hn <;> cases hn <;> exact ⟨.inl rfl, .inr (.inr ⟨i, r, rfl, hp⟩), .inl rfl, .inl (Nat.le_refl _), .inl (Nat.le_refl _), .inl rfl⟩
    case unstop => cases hn; exact ⟨.inr (.inr ⟨i, r, hp, rfl⟩), .inl rfl, .inl rfl, .inl (Nat.le_refl _), .inl (Nat.le_refl _), .inl rfl⟩
    case derive => cases hn; exact ⟨.inl rfl, .inl rfl, .inr (fun h => by cases h), .inl (Nat.le_refl _), .inl (Nat.le_refl _), .inl rfl⟩
    case addWg => cases hn; exact ⟨.inl rfl, .inl rfl, .inl rfl, .inr (.inl ⟨i, r, hp⟩), .inl (Nat.le_refl _), .inl rfl⟩
    case addInit => cases hn; exact ⟨.inl rfl, .inl rfl, .inl rfl, .inl (Nat.le_refl _), .inr ⟨i, r, hp⟩, .inl rfl⟩
    case spawn => cases hn; exact ⟨.inl rfl, .inl rfl, .inl rfl, .inl (Nat.le_refl _), .inl (Nat.le_refl _), .inr ⟨i, r, hp⟩⟩
    all_goals
      (try split at hn) <;> cases hn
      all_goals exact .same rfl rfl rfl rfl rfl rfl
  | stop k b =>
    rw [hp] at hn
    cases k <;> simp only [Sys.stopStep, Sys.lockMu] at hn
    case swap => cases hn; exact ⟨.inr (.inl ⟨i, b, rfl, hp, rfl⟩), .inl rfl, .inl rfl, .inl (Nat.le_refl _), .inl (Nat.le_refl _), .inl rfl⟩
    case init k => cases k <;> cases hn <;> exact .same rfl rfl rfl rfl rfl rfl
    all_goals
      (try split at hn) <;> cases hn
      all_goals exact .same rfl rfl rfl rfl rfl rfl
  | wait k r => rw [hp] at hn; cases k <;> cases hn <;> exact .same rfl rfl rfl rfl rfl rfl
  | restartInit k => rw [hp] at hn; cases k <;> cases hn <;> exact .same rfl rfl rfl rfl rfl rfl
  | finish =>
    rw [hp] at hn
    simp only at hn
    split at hn <;> cases hn <;> exact .same rfl rfl rfl rfl rfl rfl
  | call p =>
    rw [hp] at hn
    cases p with
    | ret v => cases hn; exact .same rfl rfl rfl rfl rfl rfl
    | _ => cases hn

theorem wgDone_le {s s' : Sys} (h : s.wgDone = .ok s') : s'.wg ≤ s.wg ∧ s'.init = s.init ∧ s'.started = s.started := by
  unfold Sys.wgDone at h
  split at h <;> cases h
  · exact ⟨Nat.zero_le _, rfl, rfl⟩
  · next n e => exact ⟨by rw [e]; exact Nat.le_succ _, rfl, rfl⟩

theorem initDone_le {s s' : Sys} (h : s.initDone = .ok s') : s'.init ≤ s.init ∧ s'.wg = s.wg ∧ s'.started = s.started := by
  unfold Sys.initDone at h
  split at h <;> cases h
  · exact ⟨Nat.zero_le _, rfl, rfl⟩
  · next n e => exact ⟨by rw [e]; exact Nat.le_succ _, rfl, rfl⟩

theorem activeDone_le {s s' : Sys} (h : s.activeDone = .ok s') : s'.init = s.init ∧ s'.wg = s.wg ∧ s'.started = s.started := by
  unfold Sys.activeDone at h
  split at h <;> cases h
  exact ⟨rfl, rfl, rfl⟩

theorem step_effects {s s' : Sys} {e : SEv} (h : Sys.Step s e s') : Effects s e s' := by
  cases h with
  | @life _ c hn =>
    cases c with
    | api i c => exact apiStep_effects hn
    | run g ok =>
      have f := runStep_frame hn
      obtain ⟨r0, r', h1, _, h3⟩ := runStep_runs hn
      have hl : s'.runs.length = s.runs.length := by rw [h3, List.length_set]
      have mk : (s'.started = s.started ∨ s'.started = false) → (s'.wg ≤ s.wg ∨ ∃ (g : Nat) (r : RunG), s.runs[g]? = some r ∧ r.pc = .addWg) → s'.init ≤ s.init → Effects s (.life (.run g ok)) s' :=
        fun a b c => ⟨.inl f.stopped, a.elim .inl fun h => .inr (.inl h), .inl f.ctx, b.elim .inl fun h => .inr (.inr h), .inl c, .inl hl⟩
      simp only [Sys.next, Sys.runStep] at hn
      split at hn
      · cases hn
      next r hr =>
      cases hp : r.pc <;> simp only [hp, Sys.lockMu] at hn
      case initDone =>
        cases he : s.initDone <;> rw [he] at hn <;> cases hn
        have := initDone_le he
        exact mk (.inl this.2.2) (.inl (Nat.le_of_eq this.2.1)) this.1
      case wgDone =>
        cases he : s.wgDone <;> rw [he] at hn <;> cases hn
        have := wgDone_le he
        exact mk (.inl this.2.2) (.inl this.1) (Nat.le_of_eq this.2.1)
      case addWg => cases hn; exact mk (.inl rfl) (.inr ⟨g, r, hr, hp⟩) (Nat.le_refl _)
      case storeStarted => cases hn; exact mk (.inr rfl) (.inl (Nat.le_refl _)) (Nat.le_refl _)
      case accept =>
        split at hn
        · cases hn; exact mk (.inl rfl) (.inl (Nat.le_refl _)) (Nat.le_refl _)
        · split at hn <;> cases hn
          exact mk (.inl rfl) (.inl (Nat.le_refl _)) (Nat.le_refl _)
      all_goals
        (try split at hn) <;> cases hn
        all_goals exact mk (.inl rfl) (.inl (Nat.le_refl _)) (Nat.le_refl _)
    | conn c =>
      have f := connStep_frame hn
      have hr := connStep_runs hn
      have mk : s'.started = s.started → s'.wg ≤ s.wg → s'.init ≤ s.init → Effects s (.life (.conn c)) s' :=
        fun a b c => ⟨.inl f.stopped, .inl a, .inl f.ctx, .inl b, .inl c, .inl (by rw [hr])⟩
      simp only [Sys.next, Sys.connStep] at hn
      split at hn
      · cases hn
      split at hn
      · cases hn; exact mk rfl (Nat.le_refl _) (Nat.le_refl _)
      · cases hn
      · cases hn
      · unfold Sys.lockMu at hn; split at hn <;> cases hn; exact mk rfl (Nat.le_refl _) (Nat.le_refl _)
      · split at hn <;> cases hn; exact mk rfl (Nat.le_refl _) (Nat.le_refl _)
      · cases he : s.activeDone <;> rw [he] at hn <;> cases hn
        have := activeDone_le he
        exact mk this.2.2 (Nat.le_of_eq this.2.1) (Nat.le_of_eq this.1)
      · cases he : s.wgDone <;> rw [he] at hn <;> cases hn
        have := wgDone_le he
        exact mk this.2.2 this.1 (Nat.le_of_eq this.2.1)
      · cases hn; exact mk rfl (Nat.le_refl _) (Nat.le_refl _)
      · cases hn
    | parentCancel => cases hn; exact .same rfl rfl rfl rfl rfl rfl
  | _ => exact .same rfl rfl rfl rfl rfl rfl

theorem step_closed {s s' : Sys} {e : SEv} (h : Sys.Step s e s') {g : Nat} (hg : g ∈ s.closes) : g ∈ s'.closes := by
  rcases step_listener h with ⟨_, e⟩ | ⟨_, e⟩ | ⟨g', _, _, e⟩ | ⟨_, _, _, _, _, _, _, _, e⟩ <;> rw [e]
  · exact hg
  · exact hg
  · exact List.mem_cons_of_mem _ hg
  · exact hg

theorem step_done {s s' : Sys} {e : SEv} (h : Sys.Step s e s') {g : Nat} (hg : s.isDone g = true) : s'.isDone g = true :=
  run_done (.cons h (.nil _)) hg

theorem Woken.onWg {pc pc' : ApiPc} (h : Woken pc pc') (hw : pc'.onWg = true) : pc.onWg = true := by
  cases h with
  | not => exact hw
  | wg => unfold ApiPc.wakeWg at hw; split at hw <;> first | exact hw | rfl
  | init => unfold ApiPc.wakeInit at hw; split at hw <;> exact hw

theorem Woken.onInit {pc pc' : ApiPc} (h : Woken pc pc') (hw : pc'.onInit = true) : pc.onInit = true := by
  cases h with
  | not => exact hw
  | wg => unfold ApiPc.wakeWg at hw; split at hw <;> exact hw
  | init => unfold ApiPc.wakeInit at hw; split at hw <;> first | exact hw | rfl

/-- Woken from a wait for `km.wg`. -/
def ApiPc.wokenWg : ApiPc → Bool
  | .wait .woken _ => true
  | _ => false

/-- Woken from a wait for `km.initializing`. -/
def ApiPc.wokenInit : ApiPc → Bool
  | .stop (.init .woken) _ | .restartInit .woken => true
  | _ => false

/-- Callers are woken by a counter that becomes zero. -/
theorem step_woken {s s' : Sys} {e : SEv} (h : Sys.Step s e s') (j : Nat) :
    ((s'.api j).wokenWg = true → (s.api j).wokenWg = true ∨ s'.wg = 0) ∧ ((s'.api j).wokenInit = true → (s.api j).wokenInit = true ∨ s'.init = 0) := by
  have quiet : s'.api j = s.api j → ((s'.api j).wokenWg = true → (s.api j).wokenWg = true ∨ s'.wg = 0) ∧
      ((s'.api j).wokenInit = true → (s.api j).wokenInit = true ∨ s'.init = 0) := fun e => ⟨fun h => .inl (e ▸ h), fun h => .inl (e ▸ h)⟩
  by_cases he : e.of = some (.api j)
  · rcases step_api h j with ⟨_, hn⟩ | ⟨hne, _⟩
    · generalize s.api j = pc at hn
      generalize s'.api j = pc' at hn
      cases hn with
      | call c => cases c <;> exact ⟨fun h => (by cases h), fun h => (by cases h)⟩
      | again b | unstarted b | cancel b => cases b <;> exact ⟨fun h => (by cases h), fun h => (by cases h)⟩
      | _ => exact ⟨fun h => (by cases h), fun h => (by cases h)⟩
    · exact absurd he hne
  have wgD : ∀ {t : Sys}, s.wgDone = .ok t → (t.api = s.api ∨ (t.wg = 0 ∧ ∀ j, t.api j = (s.api j).wakeWg)) := by
    intro t ht
    unfold Sys.wgDone at ht
    split at ht <;> cases ht
    · exact .inr ⟨rfl, fun j => rfl⟩
    · exact .inl rfl
  have inD : ∀ {t : Sys}, s.initDone = .ok t → (t.api = s.api ∨ (t.init = 0 ∧ ∀ j, t.api j = (s.api j).wakeInit)) := by
    intro t ht
    unfold Sys.initDone at ht
    split at ht <;> cases ht
    · exact .inr ⟨rfl, fun j => rfl⟩
    · exact .inl rfl
  have wgQ : (s'.api = s.api ∨ (s'.wg = 0 ∧ ∀ j, s'.api j = (s.api j).wakeWg)) → ((s'.api j).wokenWg = true → (s.api j).wokenWg = true ∨ s'.wg = 0) ∧
      ((s'.api j).wokenInit = true → (s.api j).wokenInit = true ∨ s'.init = 0) := by
    rintro (e | ⟨e1, e2⟩)
    · exact quiet (by rw [e])
    · refine ⟨fun _ => .inr e1, fun h => .inl ?_⟩
      rw [e2] at h
      unfold ApiPc.wakeWg at h
      split at h
      · cases h
      · exact h
  have inQ : (s'.api = s.api ∨ (s'.init = 0 ∧ ∀ j, s'.api j = (s.api j).wakeInit)) → ((s'.api j).wokenWg = true → (s.api j).wokenWg = true ∨ s'.wg = 0) ∧
      ((s'.api j).wokenInit = true → (s.api j).wokenInit = true ∨ s'.init = 0) := by
    rintro (e | ⟨e1, e2⟩)
    · exact quiet (by rw [e])
    · refine ⟨fun h => .inl ?_, fun _ => .inr e1⟩
      rw [e2] at h
      unfold ApiPc.wakeInit at h
      split at h
      · cases h
      · cases h
      · exact h
  cases h with
  | @life _ c hn =>
    cases c with
    | api i c => exact quiet (apiStep_other hn fun e => he (by rw [e]; rfl))
    | run g ok =>
      simp only [Sys.next, Sys.runStep] at hn
      split at hn
      · cases hn
      next r hr =>
      cases hp : r.pc <;> simp only [hp, Sys.lockMu] at hn
      case initDone =>
        cases he : s.initDone <;> rw [he] at hn <;> cases hn
        have := inD he
        exact inQ this
      case wgDone =>
        cases he : s.wgDone <;> rw [he] at hn <;> cases hn
        have := wgD he
        exact wgQ this
      case accept =>
        split at hn
        · cases hn; exact quiet rfl
        · split at hn <;> cases hn
          exact quiet rfl
      all_goals
        (try split at hn) <;> cases hn
        all_goals exact quiet rfl
    | conn c =>
      simp only [Sys.next, Sys.connStep] at hn
      split at hn
      · cases hn
      split at hn
      · cases hn; exact quiet rfl
      · cases hn
      · cases hn
      · unfold Sys.lockMu at hn; split at hn <;> cases hn; exact quiet rfl
      · split at hn <;> cases hn; exact quiet rfl
      · cases he : s.activeDone <;> rw [he] at hn <;> cases hn
        rename_i t
        have : t.api = s.api := by unfold Sys.activeDone at he; split at he <;> cases he; rfl
        exact quiet (by show t.api j = _; rw [this])
      · cases he : s.wgDone <;> rw [he] at hn <;> cases hn
        have := wgD he
        exact wgQ this
      · cases hn; exact quiet rfl
      · cases hn
    | parentCancel => cases hn; exact quiet rfl
  | @call i a f r w hp ha => exact quiet (if_neg fun e => he (by rw [e]; rfl))
  | _ => exact quiet rfl

theorem step_asleep {s s' : Sys} {e : SEv} (h : Sys.Step s e s') (ha : Asleep s) : Asleep s' := by
  have hz : (s'.wg = s.wg ∨ 0 < s'.wg ∨ ∀ j, s'.api j = (s.api j).wakeWg) ∧ (s'.init = s.init ∨ 0 < s'.init ∨ ∀ j, s'.api j = (s.api j).wakeInit) := by
    have wgD : ∀ {t : Sys}, s.wgDone = .ok t → (0 < t.wg ∨ ∀ j, t.api j = (s.api j).wakeWg) := by
      intro t ht
      unfold Sys.wgDone at ht
      split at ht <;> cases ht
      · exact .inr fun j => rfl
      · exact .inl (Nat.succ_pos _)
    have inD : ∀ {t : Sys}, s.initDone = .ok t → (0 < t.init ∨ ∀ j, t.api j = (s.api j).wakeInit) := by
      intro t ht
      unfold Sys.initDone at ht
      split at ht <;> cases ht
      · exact .inr fun j => rfl
      · exact .inl (Nat.succ_pos _)
    cases h with
    | @life _ c hn =>
      cases c with
      | api i c =>
        have hn : s.apiStep i c = .ok s' := hn
        unfold Sys.apiStep at hn
        cases hp : s.api i with
        | idle => rw [hp] at hn; cases hn; exact ⟨.inl rfl, .inl rfl⟩
        | panicked w => rw [hp] at hn; cases hn; exact ⟨.inl rfl, .inl rfl⟩
        | start k r =>
          rw [hp] at hn
          cases k <;> simp only [Sys.startStep, Sys.lockMu] at hn
          case addWg => cases hn; exact ⟨.inr (.inl (Nat.succ_pos _)), .inl rfl⟩
          case addInit => cases hn; exact ⟨.inl rfl, .inr (.inl (Nat.succ_pos _))⟩
          all_goals
            (try split at hn) <;> cases hn
            all_goals exact ⟨.inl rfl, .inl rfl⟩
        | stop k b =>
          rw [hp] at hn
          cases k <;> simp only [Sys.stopStep, Sys.lockMu] at hn
          case init k => cases k <;> cases hn <;> exact ⟨.inl rfl, .inl rfl⟩
          all_goals
            (try split at hn) <;> cases hn
            all_goals exact ⟨.inl rfl, .inl rfl⟩
        | wait k r => rw [hp] at hn; cases k <;> cases hn <;> exact ⟨.inl rfl, .inl rfl⟩
        | restartInit k => rw [hp] at hn; cases k <;> cases hn <;> exact ⟨.inl rfl, .inl rfl⟩
        | finish =>
          rw [hp] at hn
          simp only at hn
          split at hn <;> cases hn <;> exact ⟨.inl rfl, .inl rfl⟩
        | call p =>
          rw [hp] at hn
          cases p with
          | ret v => cases hn; exact ⟨.inl rfl, .inl rfl⟩
          | _ => cases hn
      | run g ok =>
        simp only [Sys.next, Sys.runStep] at hn
        split at hn
        · cases hn
        next r hr =>
        cases hp : r.pc <;> simp only [hp, Sys.lockMu] at hn
        case initDone =>
          cases he : s.initDone <;> rw [he] at hn <;> cases hn
          have := inD he
          exact ⟨.inl (initDone_le he).2.1, .inr this⟩
        case wgDone =>
          cases he : s.wgDone <;> rw [he] at hn <;> cases hn
          have := wgD he
          exact ⟨.inr this, .inl (wgDone_le he).2.1⟩
        case addWg => cases hn; exact ⟨.inr (.inl (Nat.succ_pos _)), .inl rfl⟩
        case accept =>
          split at hn
          · cases hn; exact ⟨.inl rfl, .inl rfl⟩
          · split at hn <;> cases hn
            exact ⟨.inl rfl, .inl rfl⟩
        all_goals
          (try split at hn) <;> cases hn
          all_goals exact ⟨.inl rfl, .inl rfl⟩
      | conn c =>
        simp only [Sys.next, Sys.connStep] at hn
        split at hn
        · cases hn
        split at hn
        · cases hn; exact ⟨.inl rfl, .inl rfl⟩
        · cases hn
        · cases hn
        · unfold Sys.lockMu at hn; split at hn <;> cases hn; exact ⟨.inl rfl, .inl rfl⟩
        · split at hn <;> cases hn; exact ⟨.inl rfl, .inl rfl⟩
        · cases he : s.activeDone <;> rw [he] at hn <;> cases hn
          have := activeDone_le he
          exact ⟨.inl this.2.1, .inl this.1⟩
        · cases he : s.wgDone <;> rw [he] at hn <;> cases hn
          have := wgD he
          exact ⟨.inr this, .inl (wgDone_le he).2.1⟩
        · cases hn; exact ⟨.inl rfl, .inl rfl⟩
        · cases hn
      | parentCancel => cases hn; exact ⟨.inl rfl, .inl rfl⟩
    | _ => exact ⟨.inl rfl, .inl rfl⟩
  have wgw : ∀ {pc : ApiPc}, pc.wakeWg.onWg = false := by
    intro pc
    cases pc with
    | wait k r => cases k <;> rfl
    | _ => rfl
  have inw : ∀ {pc : ApiPc}, pc.wakeInit.onInit = false := by
    intro pc
    cases pc with
    | stop k b =>
      cases k with
      | init k => cases k <;> rfl
      | _ => rfl
    | restartInit k => cases k <;> rfl
    | _ => rfl
  intro j
  refine ⟨fun hr => ?_, fun hr => ?_⟩
  · rcases hz.1 with e | e | e
    · rw [e]
      rcases step_api h j with ⟨_, hn⟩ | ⟨_, hn⟩
      · generalize s.api j = pc at hn
        generalize s'.api j = pc' at hn hr
        cases hn with
        | call c => cases c <;> cases hr
        | waitSleep _ h => omega
        | again b | unstarted b | cancel b => cases b <;> cases hr
        | _ => cases hr
      · exact (ha j).1 (hn.onWg hr)
    · exact e
    · rw [e, wgw] at hr; cases hr
  · rcases hz.2 with e | e | e
    · rw [e]
      rcases step_api h j with ⟨_, hn⟩ | ⟨_, hn⟩
      · generalize s.api j = pc at hn
        generalize s'.api j = pc' at hn hr
        cases hn with
        | call c => cases c <;> cases hr
        | initSleep _ h => omega
        | restartSleep h => omega
        | again b | unstarted b | cancel b => cases b <;> cases hr
        | _ => cases hr
      · exact (ha j).2 (hn.onInit hr)
    · exact e
    · rw [e, inw] at hr; cases hr

end KM
