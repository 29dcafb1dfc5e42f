import Verif.LifeInv
/-
What a step of the mock does to the accept loops, the connections and the registry of connections.
-/
namespace KM

/-- How a connection goroutine goes on. -/
inductive ConnNext : ConnPc → ConnPc → Prop where
  | body {p p' : Prog Unit} : ConnNext (.body p) (.body p')
  | over {p : Prog Unit} : ConnNext (.body p) (.oc .lock)
  | lock : ConnNext (.oc .lock) (.oc .delete)
  | delete : ConnNext (.oc .delete) (.oc .active)
  | active : ConnNext (.oc .active) (.oc .wg)
  | wg : ConnNext (.oc .wg) (.oc .unlock)
  | unlock : ConnNext (.oc .unlock) .ended

/-- How an accept loop goes on without accepting a connection. -/
inductive LoopNext : RunPc → RunPc → Prop where
  | listen : LoopNext .listen .setListener
  | setListener : LoopNext .setListener .initDone
  | initDone : LoopNext .initDone .accept
  | accept : LoopNext .accept .select
  | closed : LoopNext .accept .waitActive
  | refuse : LoopNext .select .accept
  | select : LoopNext .select .lock
  | lock : LoopNext .lock .register
  | addActive : LoopNext .addActive .addWg
  | addWg : LoopNext .addWg .unlock
  | unlock : LoopNext .unlock .accept
  | waitActive : LoopNext .waitActive .storeStarted
  | storeStarted : LoopNext .storeStarted .wgDone
  | wgDone : LoopNext .wgDone .ended

/-- What a step does to accept loops, connections and the registry. -/
inductive Shape (s s' : Sys) : Prop where
  /-- nothing, except that a new accept loop may be started -/
  | quiet (hc : s'.conns = s.conns) (hcl : s'.clients = s.clients) (hr : s'.runs = s.runs ∨ s'.runs = s.runs ++ [⟨.listen, 0⟩])
  /-- line 54 -/
  | reset (i : Nat) (r : Bool) (hi : s.api i = .start .reset r) (hc : s'.conns = s.conns) (hcl : s'.clients = []) (hr : s'.runs = s.runs)
  /-- an accept loop goes on -/
  | loop (g : Nat) (r : RunG) (pc : RunPc) (hg : s.runs[g]? = some r) (hn : LoopNext r.pc pc) (hw : r.pc = .waitActive → s.active = 0)
      (hr : s'.runs = s.runs.set g { r with pc := pc }) (hc : s'.conns = s.conns) (hcl : s'.clients = s.clients)
  /-- lines 149-158 -/
  | register (g : Nat) (r : RunG) (hg : s.runs[g]? = some r) (hp : r.pc = .register) (hr : s'.runs = s.runs.set g ⟨.addActive, r.cxn + 1⟩)
      (hc : s'.conns = s.conns ++ [⟨g, r.cxn + 1, s.ctx.getD 0, .body (handle s.sv)⟩])
      (hcl : s'.clients = GoMap.set s.clients (r.cxn + 1) s.conns.length)
  /-- a connection goes on -/
  | conn (c : Nat) (k : ConnG) (pc : ConnPc) (hk : s.conns[c]? = some k) (hn : ConnNext k.pc pc) (hd : k.pc ≠ .oc .delete)
      (hc : s'.conns = s.conns.set c { k with pc := pc }) (hcl : s'.clients = s.clients) (hr : s'.runs = s.runs)
  /-- line 153 -/
  | delete (c : Nat) (k : ConnG) (r : RunG) (hk : s.conns[c]? = some k) (hp : k.pc = .oc .delete) (hg : s.runs[k.gen]? = some r)
      (hc : s'.conns = s.conns.set c { k with pc := .oc .active }) (hcl : s'.clients = GoMap.erase s.clients r.cxn) (hr : s'.runs = s.runs)

theorem wgDone_same {s s' : Sys} (h : s.wgDone = .ok s') : s'.conns = s.conns ∧ s'.clients = s.clients ∧ s'.runs = s.runs := by
  unfold Sys.wgDone at h
  split at h <;> cases h <;> exact ⟨rfl, rfl, rfl⟩

theorem initDone_same {s s' : Sys} (h : s.initDone = .ok s') : s'.conns = s.conns ∧ s'.clients = s.clients ∧ s'.runs = s.runs := by
  unfold Sys.initDone at h
  split at h <;> cases h <;> exact ⟨rfl, rfl, rfl⟩

theorem activeDone_same {s s' : Sys} (h : s.activeDone = .ok s') : s'.conns = s.conns ∧ s'.clients = s.clients ∧ s'.runs = s.runs := by
  unfold Sys.activeDone at h
  split at h <;> cases h; exact ⟨rfl, rfl, rfl⟩

theorem Sys.Step.shape {s s' : Sys} {e : SEv} (h : Sys.Step s e s') : Shape s s' := by
  cases h with
  | @life _ c hn =>
    cases c with
    | api i c =>
      simp only [Sys.next, Sys.apiStep] at hn
      split at hn
      · cases hn; exact .quiet rfl rfl (.inl rfl)
      · cases hn; exact .quiet rfl rfl (.inl rfl)
      · next k r hk =>
        cases k
        case reset => cases hn; exact .reset i r hk rfl rfl rfl
        case spawn => cases hn; exact .quiet rfl rfl (.inr rfl)
        all_goals
          simp only [Sys.startStep, Sys.lockMu] at hn
          (try split at hn) <;> cases hn <;> exact .quiet rfl rfl (.inl rfl)
      · next k b hk =>
        clear hk
        cases k
        case init k => cases k <;> simp only [Sys.stopStep, Sys.waitStep, reduceCtorEq, Out.ok.injEq] at hn <;> subst hn <;> exact .quiet rfl rfl (.inl rfl)
        all_goals
          simp only [Sys.stopStep, Sys.lockMu] at hn
          (try split at hn) <;> cases hn <;> exact .quiet rfl rfl (.inl rfl)
      · next k r hk => clear hk; cases k <;> simp only [Sys.waitStep, reduceCtorEq, Out.ok.injEq] at hn <;> subst hn <;> exact .quiet rfl rfl (.inl rfl)
      · next k hk => clear hk; cases k <;> simp only [Sys.waitStep, reduceCtorEq, Out.ok.injEq] at hn <;> subst hn <;> exact .quiet rfl rfl (.inl rfl)
      · split at hn <;> cases hn <;> exact .quiet rfl rfl (.inl rfl)
      · cases hn; exact .quiet rfl rfl (.inl rfl)
      · cases hn
      · cases hn
    | run g ok =>
      simp only [Sys.next, Sys.runStep] at hn
      split at hn
      · cases hn
      next r hr =>
      have hw : ∀ {pc : RunPc}, r.pc = pc → pc ≠ .waitActive → r.pc = .waitActive → s.active = 0 := by
        intro pc e h e'; exact absurd (e.symm.trans e') h
      cases hp : r.pc <;> simp only [hp] at hn
      case initDone =>
        cases he : s.initDone <;> rw [he] at hn <;> cases hn
        obtain ⟨e1, e2, e3⟩ := initDone_same he
        exact .loop g r .accept hr (hp ▸ .initDone) (hw hp (by decide)) (by show List.set _ _ _ = _; rw [e3]) e1 e2
      case wgDone =>
        cases he : s.wgDone <;> rw [he] at hn <;> cases hn
        obtain ⟨e1, e2, e3⟩ := wgDone_same he
        exact .loop g r .ended hr (hp ▸ .wgDone) (hw hp (by decide)) (by show List.set _ _ _ = _; rw [e3]) e1 e2
      case lock =>
        unfold Sys.lockMu at hn
        split at hn <;> cases hn
        exact .loop g r .register hr (hp ▸ .lock) (hw hp (by decide)) rfl rfl rfl
      case accept =>
        split at hn
        · cases hn; exact .loop g r .waitActive hr (hp ▸ .closed) (hw hp (by decide)) rfl rfl rfl
        · split at hn <;> cases hn; exact .loop g r .select hr (hp ▸ .accept) (hw hp (by decide)) rfl rfl rfl
      case select =>
        cases hn
        refine .loop g r _ hr ?_ (hw hp (by decide)) rfl rfl rfl
        rw [hp]
        split
        · exact .refuse
        · exact .select
      case waitActive =>
        split at hn <;> cases hn
        next ha => exact .loop g r .storeStarted hr (hp ▸ .waitActive) (fun _ => ha) rfl rfl rfl
      case register => cases hn; exact .register g r hr hp rfl rfl rfl
      case listen => split at hn <;> cases hn; exact .loop g r .setListener hr (hp ▸ .listen) (hw hp (by decide)) rfl rfl rfl
      case setListener => cases hn; exact .loop g r .initDone hr (hp ▸ .setListener) (hw hp (by decide)) rfl rfl rfl
      case addActive => cases hn; exact .loop g r .addWg hr (hp ▸ .addActive) (hw hp (by decide)) rfl rfl rfl
      case addWg => cases hn; exact .loop g r .unlock hr (hp ▸ .addWg) (hw hp (by decide)) rfl rfl rfl
      case unlock => cases hn; exact .loop g r .accept hr (hp ▸ .unlock) (hw hp (by decide)) rfl rfl rfl
      case storeStarted => cases hn; exact .loop g r .wgDone hr (hp ▸ .storeStarted) (hw hp (by decide)) rfl rfl rfl
      case ended => cases hn
    | conn c =>
      simp only [Sys.next, Sys.connStep] at hn
      split at hn
      · cases hn
      next k hk =>
      split at hn
      · next hp => cases hn; exact .conn c k (.oc .lock) hk (hp ▸ .over) (by rw [hp]; intro h; cases h) rfl rfl rfl
      · cases hn
      · cases hn
      · next hp =>
        unfold Sys.lockMu at hn
        split at hn <;> cases hn
        exact .conn c k (.oc .delete) hk (hp ▸ .lock) (by rw [hp]; intro h; cases h) rfl rfl rfl
      · next hp =>
        split at hn <;> cases hn
        next r hr => exact .delete c k r hk hp hr rfl rfl rfl
      · next hp =>
        cases he : s.activeDone <;> rw [he] at hn <;> cases hn
        obtain ⟨e1, e2, e3⟩ := activeDone_same he
        exact .conn c k (.oc .wg) hk (hp ▸ .active) (by rw [hp]; intro h; cases h) (by show List.set _ _ _ = _; rw [e1]) e2 e3
      · next hp =>
        cases he : s.wgDone <;> rw [he] at hn <;> cases hn
        obtain ⟨e1, e2, e3⟩ := wgDone_same he
        exact .conn c k (.oc .unlock) hk (hp ▸ .wg) (by rw [hp]; intro h; cases h) (by show List.set _ _ _ = _; rw [e1]) e2 e3
      · next hp => cases hn; exact .conn c k .ended hk (hp ▸ .unlock) (by rw [hp]; intro h; cases h) rfl rfl rfl
      · cases hn
    | parentCancel => cases hn; exact .quiet rfl rfl (.inl rfl)
  | @conn c k a f r w hc hp ha => exact .conn c k (.body (f r)) hc (hp ▸ .body) (by rw [hp]; intro h; cases h) rfl rfl rfl
  | @unroll c k _ _ _ _ _ hc hp => exact .conn c k (.body (Prog.unroll _ _ _)) hc (hp ▸ .body) (by rw [hp]; intro h; cases h) rfl rfl rfl
  | call => exact .quiet rfl rfl (.inl rfl)
  | tick => exact .quiet rfl rfl (.inl rfl)

/-- A goroutine that may have been woken from a wait. -/
inductive Woken (pc : ApiPc) : ApiPc → Prop where
  | not : Woken pc pc
  | wg : Woken pc pc.wakeWg
  | init : Woken pc pc.wakeInit

/-- What accept loops and ending connections leave alone. -/
structure Frame (s s' : Sys) : Prop where
  sv : s'.sv = s.sv
  stopped : s'.stopped = s.stopped
  ctx : s'.ctx = s.ctx
  cancels : s'.cancels = s.cancels
  done : s'.done = s.done
  parentDone : s'.parentDone = s.parentDone
  ds : s'.ds = s.ds
  clock : s'.clock = s.clock
  api : ∀ i, Woken (s.api i) (s'.api i)

theorem Frame.of_wgDone {s s' : Sys} (h : s.wgDone = .ok s') : Frame s s' := by
  unfold Sys.wgDone at h
  split at h <;> cases h
  · exact ⟨rfl, rfl, rfl, rfl, rfl, rfl, rfl, rfl, fun _ => .wg⟩
  · exact ⟨rfl, rfl, rfl, rfl, rfl, rfl, rfl, rfl, fun _ => .not⟩

theorem Frame.of_initDone {s s' : Sys} (h : s.initDone = .ok s') : Frame s s' := by
  unfold Sys.initDone at h
  split at h <;> cases h
  · exact ⟨rfl, rfl, rfl, rfl, rfl, rfl, rfl, rfl, fun _ => .init⟩
  · exact ⟨rfl, rfl, rfl, rfl, rfl, rfl, rfl, rfl, fun _ => .not⟩

theorem Frame.of_activeDone {s s' : Sys} (h : s.activeDone = .ok s') : Frame s s' := by
  unfold Sys.activeDone at h
  split at h <;> cases h
  exact ⟨rfl, rfl, rfl, rfl, rfl, rfl, rfl, rfl, fun _ => .not⟩

theorem runStep_frame {s s' : Sys} {g : Nat} {ok : Bool} (hn : s.runStep g ok = .ok s') : Frame s s' := by
  have f : Frame s s := ⟨rfl, rfl, rfl, rfl, rfl, rfl, rfl, rfl, fun _ => .not⟩
  unfold Sys.runStep at hn
  split at hn
  · cases hn
  next r hr =>
  simp only at hn
  cases hp : r.pc <;> simp only [hp] at hn
  case initDone =>
    cases he : s.initDone <;> rw [he] at hn <;> cases hn
    exact ⟨(Frame.of_initDone he).sv, (Frame.of_initDone he).stopped, (Frame.of_initDone he).ctx, (Frame.of_initDone he).cancels,
      (Frame.of_initDone he).done, (Frame.of_initDone he).parentDone, (Frame.of_initDone he).ds, (Frame.of_initDone he).clock, (Frame.of_initDone he).api⟩
  case wgDone =>
    cases he : s.wgDone <;> rw [he] at hn <;> cases hn
    exact ⟨(Frame.of_wgDone he).sv, (Frame.of_wgDone he).stopped, (Frame.of_wgDone he).ctx, (Frame.of_wgDone he).cancels,
      (Frame.of_wgDone he).done, (Frame.of_wgDone he).parentDone, (Frame.of_wgDone he).ds, (Frame.of_wgDone he).clock, (Frame.of_wgDone he).api⟩
  case lock => unfold Sys.lockMu at hn; split at hn <;> cases hn; exact ⟨rfl, rfl, rfl, rfl, rfl, rfl, rfl, rfl, fun _ => .not⟩
  case accept =>
    split at hn
    · cases hn; exact ⟨rfl, rfl, rfl, rfl, rfl, rfl, rfl, rfl, fun _ => .not⟩
    · split at hn <;> cases hn; exact ⟨rfl, rfl, rfl, rfl, rfl, rfl, rfl, rfl, fun _ => .not⟩
  case ended => cases hn
  all_goals first
    | (cases hn; exact ⟨rfl, rfl, rfl, rfl, rfl, rfl, rfl, rfl, fun _ => .not⟩)
    | (split at hn <;> cases hn; exact ⟨rfl, rfl, rfl, rfl, rfl, rfl, rfl, rfl, fun _ => .not⟩)

theorem connStep_frame {s s' : Sys} {c : Nat} (hn : s.connStep c = .ok s') : Frame s s' := by
  unfold Sys.connStep at hn
  split at hn
  · cases hn
  next k hk =>
  simp only at hn
  split at hn
  · cases hn; exact ⟨rfl, rfl, rfl, rfl, rfl, rfl, rfl, rfl, fun _ => .not⟩
  · cases hn
  · cases hn
  · unfold Sys.lockMu at hn; split at hn <;> cases hn; exact ⟨rfl, rfl, rfl, rfl, rfl, rfl, rfl, rfl, fun _ => .not⟩
  · split at hn <;> cases hn; exact ⟨rfl, rfl, rfl, rfl, rfl, rfl, rfl, rfl, fun _ => .not⟩
  · cases he : s.activeDone <;> rw [he] at hn <;> cases hn
    exact ⟨(Frame.of_activeDone he).sv, (Frame.of_activeDone he).stopped, (Frame.of_activeDone he).ctx, (Frame.of_activeDone he).cancels,
      (Frame.of_activeDone he).done, (Frame.of_activeDone he).parentDone, (Frame.of_activeDone he).ds, (Frame.of_activeDone he).clock,
      (Frame.of_activeDone he).api⟩
  · cases he : s.wgDone <;> rw [he] at hn <;> cases hn
    exact ⟨(Frame.of_wgDone he).sv, (Frame.of_wgDone he).stopped, (Frame.of_wgDone he).ctx, (Frame.of_wgDone he).cancels,
      (Frame.of_wgDone he).done, (Frame.of_wgDone he).parentDone, (Frame.of_wgDone he).ds, (Frame.of_wgDone he).clock, (Frame.of_wgDone he).api⟩
  · cases hn; exact ⟨rfl, rfl, rfl, rfl, rfl, rfl, rfl, rfl, fun _ => .not⟩
  · cases hn

/-- What a caller of exported functions does to the data and the contexts. -/
theorem apiStep_data {s s' : Sys} {i : Nat} {c : Call} (hn : s.apiStep i c = .ok s') :
    s'.sv = s.sv ∧ s'.ds = s.ds ∧ s'.clock = s.clock ∧ s'.parentDone = s.parentDone ∧
    (s'.done = s.done ∨ ∃ x, s.ctx = some x ∧ s'.done = x :: s.done) := by
  unfold Sys.apiStep at hn
  split at hn
  · cases hn; exact ⟨rfl, rfl, rfl, rfl, .inl rfl⟩
  · cases hn; exact ⟨rfl, rfl, rfl, rfl, .inl rfl⟩
  · next k r hk =>
    clear hk
    cases k <;> simp only [Sys.startStep, Sys.lockMu] at hn <;> (try split at hn) <;> cases hn <;> exact ⟨rfl, rfl, rfl, rfl, .inl rfl⟩
  · next k b hk =>
    clear hk
    cases k
    case init k => cases k <;> simp only [Sys.stopStep, Sys.waitStep, reduceCtorEq, Out.ok.injEq] at hn <;> subst hn <;> exact ⟨rfl, rfl, rfl, rfl, .inl rfl⟩
    case cancel =>
      simp only [Sys.stopStep] at hn
      split at hn <;> cases hn
      · next x hx => exact ⟨rfl, rfl, rfl, rfl, .inr ⟨x, hx, rfl⟩⟩
      · exact ⟨rfl, rfl, rfl, rfl, .inl rfl⟩
    all_goals
      simp only [Sys.stopStep, Sys.lockMu] at hn
      (try split at hn) <;> cases hn <;> exact ⟨rfl, rfl, rfl, rfl, .inl rfl⟩
  · next k r hk => clear hk; cases k <;> simp only [Sys.waitStep, reduceCtorEq, Out.ok.injEq] at hn <;> subst hn <;> exact ⟨rfl, rfl, rfl, rfl, .inl rfl⟩
  · next k hk => clear hk; cases k <;> simp only [Sys.waitStep, reduceCtorEq, Out.ok.injEq] at hn <;> subst hn <;> exact ⟨rfl, rfl, rfl, rfl, .inl rfl⟩
  · split at hn <;> cases hn
    · next x hx => exact ⟨rfl, rfl, rfl, rfl, .inr ⟨x, hx, rfl⟩⟩
    · exact ⟨rfl, rfl, rfl, rfl, .inl rfl⟩
  · cases hn; exact ⟨rfl, rfl, rfl, rfl, .inl rfl⟩
  · cases hn
  · cases hn

/-- Steps outside the handlers' loops and the posting functions leave the data alone, and no context is revived. -/
theorem next_data {s s' : Sys} {c : Sys.Choice} (hn : s.next c = .ok s') :
    s'.sv = s.sv ∧ s'.ds = s.ds ∧ s'.clock = s.clock ∧ ∀ x, s.isDone x = true → s'.isDone x = true := by
  cases c with
  | api i c =>
    obtain ⟨h0, h1, h2, h3, h4⟩ := apiStep_data hn
    refine ⟨h0, h1, h2, fun x hx => ?_⟩
    unfold Sys.isDone at *
    rw [h3]
    rcases h4 with h4 | ⟨y, _, h4⟩
    · rw [h4]; exact hx
    · rw [h4, List.contains_cons]
      revert hx
      cases s.parentDone <;> simp +contextual
  | run g ok =>
    have f := runStep_frame hn
    exact ⟨f.sv, f.ds, f.clock, fun x hx => by unfold Sys.isDone at *; rw [f.parentDone, f.done]; exact hx⟩
  | conn c =>
    have f := connStep_frame hn
    exact ⟨f.sv, f.ds, f.clock, fun x hx => by unfold Sys.isDone at *; rw [f.parentDone, f.done]; exact hx⟩
  | parentCancel => cases hn; exact ⟨rfl, rfl, rfl, fun x _ => by simp [Sys.isDone]⟩

end KM
