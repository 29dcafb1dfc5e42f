import Verif.Props.Live
/-
C72: data races on the variables of the mock itself, /repo/kafka-mock.go:15-30 and 123.
-/
namespace KM.Props
open KM

/-- The variables of the mock that are neither atomic nor set once and for all before the first `go` statement: the fields `l`, `cancelFn`, `listener`, `clients`
(with the map) of /repo/kafka-mock.go:15-30, and the variable `cxnNumber` of accept loop `g` (line 123), which its connections' close callbacks share. -/
inductive LifeVar where
  | lane
  | cancelFn
  | listener
  | clients
  | cxn (g : Nat)
deriving DecidableEq, Repr

/-- What a goroutine reads in its next step. Here also the accesses of `km.l` made for logging are counted (lines 71, 78, 90, 93, 125, 146, 151), each with
the step that follows it; line 93 of a WaitForTermination called by a test, which no step follows, is not. -/
def _root_.KM.Sys.lifeReads (s : Sys) : Goroutine → List LifeVar
  | .api i => match s.api i with
    | .start .lock true => [.lane]
    | .stop (.init .enter) _ => [.lane]
    | .stop .close _ => [.listener, .lane]
    | .stop .cancel _ => [.cancelFn]
    | .wait .enter _ => [.lane]
    | .finish => [.cancelFn]
    | _ => []
  | .run g => match s.runs[g]? with
    | some r => match r.pc with
      | .initDone | .select | .lock => [.lane]
      | .register => [.lane, .clients, .cxn g]
      | _ => []
    | none => []
  | .conn c => match s.conns[c]? with
    | some k => match k.pc with
      | .oc .lock => [.lane]
      | .oc .delete => [.clients, .cxn k.gen]
      | _ => []
    | none => []

/-- What a goroutine writes in its next step. -/
def _root_.KM.Sys.lifeWrites (s : Sys) : Goroutine → List LifeVar
  | .api i => match s.api i with
    | .start .reset _ => [.listener, .clients]
    | .start .derive _ => [.lane, .cancelFn]
    | .stop .close _ => [.listener]
    | _ => []
  | .run g => match s.runs[g]? with
    | some r => match r.pc with
      | .setListener => [.listener]
      | .register => [.clients, .cxn g]
      | _ => []
    | none => []
  | .conn c => match s.conns[c]? with
    | some k => match k.pc with
      | .oc .delete => [.clients]
      | _ => []
    | none => []

/-- Two goroutines are about to access the same variable at the same time, the first to write it. -/
def LifeRace (s : Sys) (x y : Goroutine) (v : LifeVar) : Prop := x ≠ y ∧ v ∈ s.lifeWrites x ∧ (v ∈ s.lifeReads y ∨ v ∈ s.lifeWrites y)

/-- The variable has the same value in both states. -/
def LifeVar.same (s s' : Sys) : LifeVar → Prop
  | .lane | .cancelFn => s'.ctx = s.ctx
  | .listener => s'.listener = s.listener
  | .clients => s'.clients = s.clients
  | .cxn g => ∀ r, s.runs[g]? = some r → ∃ r', s'.runs[g]? = some r' ∧ r'.cxn = r.cxn

/-- Nothing is changed but the other variables. -/
structure LifeKept (s s' : Sys) : Prop where
  ctx : s'.ctx = s.ctx
  listener : s'.listener = s.listener
  clients : s'.clients = s.clients
  runs : s'.runs = s.runs

theorem LifeKept.same {s s' : Sys} (h : LifeKept s s') (v : LifeVar) : v.same s s' := by
  cases v with
  | lane | cancelFn => exact h.ctx
  | listener => exact h.listener
  | clients => exact h.clients
  | cxn g => exact fun r hr => ⟨r, by rw [h.runs]; exact hr, rfl⟩

theorem kept_wgDone {s s' : Sys} (h : s.wgDone = .ok s') : LifeKept s s' := by
  unfold Sys.wgDone at h
  split at h <;> cases h <;> exact ⟨rfl, rfl, rfl, rfl⟩

theorem kept_initDone {s s' : Sys} (h : s.initDone = .ok s') : LifeKept s s' := by
  unfold Sys.initDone at h
  split at h <;> cases h <;> exact ⟨rfl, rfl, rfl, rfl⟩

theorem kept_activeDone {s s' : Sys} (h : s.activeDone = .ok s') : LifeKept s s' := by
  unfold Sys.activeDone at h
  split at h <;> cases h; exact ⟨rfl, rfl, rfl, rfl⟩

theorem apiStep_same {s s' : Sys} {i : Nat} {c : Call} (hn : s.apiStep i c = .ok s') (v : LifeVar) (hv : v ∉ s.lifeWrites (.api i)) : v.same s s' := by
  unfold Sys.lifeWrites at hv
  unfold Sys.apiStep at hn
  cases hp : s.api i with
  | idle => rw [hp] at hn; cases hn; exact LifeKept.same ⟨rfl, rfl, rfl, rfl⟩ v
  | panicked w => rw [hp] at hn; cases hn; exact LifeKept.same ⟨rfl, rfl, rfl, rfl⟩ v
  | start k r =>
    simp only [hp] at hn hv
    cases k <;> simp only [Sys.startStep, Sys.lockMu] at hn hv
    case reset =>
      cases hn
      cases v with
      | listener | clients => simp at hv
      | lane | cancelFn => exact rfl
      | cxn g => exact fun r hr => ⟨r, hr, rfl⟩
    case derive =>
      cases hn
      cases v with
      | lane | cancelFn => simp at hv
      | listener | clients => exact rfl
      | cxn g => exact fun r hr => ⟨r, hr, rfl⟩
    case spawn =>
      cases hn
      cases v with
      | cxn g => exact fun r hr => ⟨r, List.getElem?_append_left (List.getElem?_eq_some_iff.1 hr).1 ▸ hr, rfl⟩
      | _ => exact rfl
    all_goals
      (try split at hn) <;> cases hn
      all_goals exact LifeKept.same ⟨rfl, rfl, rfl, rfl⟩ v
  | stop k b =>
    simp only [hp] at hn hv
    cases k <;> simp only [Sys.stopStep, Sys.lockMu] at hn hv
    case init k => cases k <;> cases hn <;> exact LifeKept.same ⟨rfl, rfl, rfl, rfl⟩ v
    case close =>
      split at hn <;> cases hn
      · cases v with
        | listener => simp at hv
        | lane | cancelFn | clients => exact rfl
        | cxn g => exact fun r hr => ⟨r, hr, rfl⟩
      · exact LifeKept.same ⟨rfl, rfl, rfl, rfl⟩ v
    all_goals
      (try split at hn) <;> cases hn
      all_goals exact LifeKept.same ⟨rfl, rfl, rfl, rfl⟩ v
  | wait k r => simp only [hp] at hn; cases k <;> cases hn <;> exact LifeKept.same ⟨rfl, rfl, rfl, rfl⟩ v
  | restartInit k => simp only [hp] at hn; cases k <;> cases hn <;> exact LifeKept.same ⟨rfl, rfl, rfl, rfl⟩ v
  | finish => simp only [hp] at hn; split at hn <;> cases hn <;> exact LifeKept.same ⟨rfl, rfl, rfl, rfl⟩ v
  | call p =>
    rw [hp] at hn
    cases p with
    | ret => cases hn; exact LifeKept.same ⟨rfl, rfl, rfl, rfl⟩ v
    | _ => cases hn

theorem setRun_same {s s0 : Sys} {g : Nat} {r : RunG} {pc : RunPc} (h : LifeKept s s0) (hr : s.runs[g]? = some r) (v : LifeVar) :
    v.same s (s0.setRun g { r with pc := pc }) := by
  cases v with
  | lane | cancelFn => exact h.ctx
  | listener => exact h.listener
  | clients => exact h.clients
  | cxn g' =>
    intro r' hr'
    unfold Sys.setRun
    dsimp only
    rw [h.runs]
    by_cases e : g = g'
    · subst e; rw [hr] at hr'; cases hr'
      exact ⟨_, List.getElem?_set_self (List.getElem?_eq_some_iff.1 hr).1, rfl⟩
    · exact ⟨r', by rw [List.getElem?_set_ne e]; exact hr', rfl⟩

theorem runStep_same {s s' : Sys} {g : Nat} {ok : Bool} (hn : s.runStep g ok = .ok s') (v : LifeVar) (hv : v ∉ s.lifeWrites (.run g)) : v.same s s' := by
  unfold Sys.lifeWrites at hv
  unfold Sys.runStep at hn
  split at hn
  · cases hn
  next r hr =>
  simp only [hr] at hv
  simp only at hn
  cases hp : r.pc <;> simp only [hp] at hn hv
  case setListener =>
    cases hn
    cases v with
    | listener => simp at hv
    | lane | cancelFn | clients => exact rfl
    | cxn g' => exact setRun_same (s := s) ⟨rfl, rfl, rfl, rfl⟩ hr (.cxn g')
  case register =>
    cases hn
    cases v with
    | clients => simp at hv
    | lane | cancelFn | listener => exact rfl
    | cxn g' =>
      have e : g ≠ g' := by rintro rfl; simp at hv
      exact fun r' hr' => ⟨r', by dsimp only; rw [List.getElem?_set_ne e]; exact hr', rfl⟩
  case initDone => cases he : s.initDone <;> rw [he] at hn <;> cases hn; exact setRun_same (kept_initDone he) hr v
  case wgDone => cases he : s.wgDone <;> rw [he] at hn <;> cases hn; exact setRun_same (kept_wgDone he) hr v
  case lock =>
    unfold Sys.lockMu at hn
    split at hn <;> cases hn
    exact setRun_same (s := s) ⟨rfl, rfl, rfl, rfl⟩ hr v
  case accept =>
    split at hn
    · cases hn; exact setRun_same (s := s) ⟨rfl, rfl, rfl, rfl⟩ hr v
    · split at hn <;> cases hn; exact setRun_same (s := s) ⟨rfl, rfl, rfl, rfl⟩ hr v
  all_goals
    (try split at hn) <;> cases hn
    all_goals exact setRun_same (s := s) ⟨rfl, rfl, rfl, rfl⟩ hr v

theorem connStep_same {s s' : Sys} {c : Nat} (hn : s.connStep c = .ok s') (v : LifeVar) (hv : v ∉ s.lifeWrites (.conn c)) : v.same s s' := by
  unfold Sys.lifeWrites at hv
  unfold Sys.connStep at hn
  split at hn
  · cases hn
  next k hk =>
  simp only [hk] at hv
  simp only at hn
  have put : ∀ {s0 : Sys} {pc : ConnPc}, LifeKept s s0 → LifeKept s (s0.setConn c { k with pc := pc }) := fun h => ⟨h.ctx, h.listener, h.clients, h.runs⟩
  split at hn
  · cases hn; exact (put ⟨rfl, rfl, rfl, rfl⟩).same v
  · cases hn
  · cases hn
  · unfold Sys.lockMu at hn; split at hn <;> cases hn; exact LifeKept.same ⟨rfl, rfl, rfl, rfl⟩ v
  · next hp =>
    split at hn <;> cases hn
    simp only [hp] at hv
    cases v with
    | clients => simp at hv
    | lane | cancelFn | listener => exact rfl
    | cxn g => exact fun r hr => ⟨r, hr, rfl⟩
  · cases he : s.activeDone <;> rw [he] at hn <;> cases hn; exact (put (kept_activeDone he)).same v
  · cases he : s.wgDone <;> rw [he] at hn <;> cases hn; exact (put (kept_wgDone he)).same v
  · cases hn; exact LifeKept.same ⟨rfl, rfl, rfl, rfl⟩ v
  · cases hn

/-- **C72** is about the accesses of the mock: a step changes no variable but those its goroutine writes. -/
theorem C72_writes {s s' : Sys} {e : SEv} (h : Sys.Step s e s') (v : LifeVar) (hv : ∀ x, e.of = some x → v ∉ s.lifeWrites x) : v.same s s' := by
  cases h with
  | @life _ c hn =>
    cases c with
    | api i c => exact apiStep_same hn v (hv _ rfl)
    | run g ok => exact runStep_same hn v (hv _ rfl)
    | conn c => exact connStep_same hn v (hv _ rfl)
    | parentCancel => cases hn; exact LifeKept.same ⟨rfl, rfl, rfl, rfl⟩ v
  | conn | unroll | call | tick => exact LifeKept.same ⟨rfl, rfl, rfl, rfl⟩ v

/-- The goroutine that acts. -/
def _root_.KM.Sys.Choice.goroutine : Sys.Choice → Option Goroutine
  | .api i _ => some (.api i)
  | .run g _ => some (.run g)
  | .conn c => some (.conn c)
  | .parentCancel => none

/-- Changes the state in which the mock is after a step. -/
def _root_.KM.Out.map (f : Sys → Sys) : Out → Out
  | .ok s => .ok (f s)
  | .blocked => .blocked
  | .crash c => .crash c

theorem ctx_unread {s : Sys} {c : Sys.Choice} (hl : ∀ x, c.goroutine = some x → .lane ∉ s.lifeReads x ∧ .cancelFn ∉ s.lifeReads x ∧ .lane ∉ s.lifeWrites x) (z : Option Nat) :
    ({ s with ctx := z } : Sys).next c = (s.next c).map fun s => { s with ctx := z } := by
  cases c with
  | api i c =>
    obtain ⟨h1, h2, h3⟩ := hl _ rfl
    simp only [Sys.lifeReads, Sys.lifeWrites] at h1 h2 h3
    simp only [Sys.next, Sys.apiStep]
    cases hp : s.api i with
    | idle | panicked w => rfl
    | start k r =>
      simp only [hp] at h1 h2 h3 ⊢
      cases k <;> simp only [Sys.startStep, Sys.lockMu] at h1 h2 h3 ⊢
      case derive => simp at h3
      all_goals first | rfl | (split <;> rfl)
    | stop k b =>
      simp only [hp] at h1 h2 h3 ⊢
      cases k <;> simp only [Sys.stopStep, Sys.lockMu] at h1 h2 h3 ⊢
      case init k => cases k <;> rfl
      case close => simp at h1
      case cancel => simp at h2
      all_goals first | rfl | (split <;> rfl)
    | wait k r => cases k <;> rfl
    | restartInit k => cases k <;> rfl
    | finish => simp [hp] at h2
    | call p => cases p <;> rfl
  | run g ok =>
    obtain ⟨h1, h2, h3⟩ := hl _ rfl
    simp only [Sys.lifeReads, Sys.lifeWrites] at h1 h2 h3
    simp only [Sys.next, Sys.runStep]
    cases hr : s.runs[g]? with
    | none => rfl
    | some r =>
      simp only [hr] at h1 h2 h3 ⊢
      cases hp : r.pc <;> simp only [hp, Sys.lockMu] at h1 h2 h3 ⊢
      case select => simp at h1
      case register => simp at h1
      case accept => split <;> first | rfl | (split <;> rfl)
      case initDone => unfold Sys.initDone; dsimp only; generalize s.init = n; rcases n with _ | _ | n <;> rfl
      case wgDone => unfold Sys.wgDone; dsimp only; generalize s.wg = n; rcases n with _ | _ | n <;> rfl
      all_goals first | rfl | (split <;> rfl)
  | conn c =>
    obtain ⟨h1, h2, h3⟩ := hl _ rfl
    simp only [Sys.lifeReads, Sys.lifeWrites] at h1 h2 h3
    simp only [Sys.next, Sys.connStep]
    cases hk : s.conns[c]? with
    | none => rfl
    | some k =>
      simp only [hk] at h1 h2 h3 ⊢
      cases hp : k.pc with
      | body p => cases p <;> rfl
      | ended => rfl
      | oc k =>
        cases k <;> simp only [hp, Sys.lockMu] at h1 h2 h3 ⊢
        case active => unfold Sys.activeDone; dsimp only; generalize s.active = n; rcases n with _ | n <;> rfl
        case wg => unfold Sys.wgDone; dsimp only; generalize s.wg = n; rcases n with _ | _ | n <;> rfl
        all_goals first | rfl | (split <;> rfl)
  | parentCancel => rfl

theorem listener_unread {s : Sys} {c : Sys.Choice} (hl : ∀ x, c.goroutine = some x → .listener ∉ s.lifeReads x ∧ .listener ∉ s.lifeWrites x ∧ True) (z : Option Nat) :
    ({ s with listener := z } : Sys).next c = (s.next c).map fun s => { s with listener := z } := by
  cases c with
  | api i c =>
    obtain ⟨h1, h2, h3⟩ := hl _ rfl
    simp only [Sys.lifeReads, Sys.lifeWrites] at h1 h2 h3
    simp only [Sys.next, Sys.apiStep]
    cases hp : s.api i with
    | idle | panicked w => rfl
    | start k r =>
      simp only [hp] at h1 h2 h3 ⊢
      cases k <;> simp only [Sys.startStep, Sys.lockMu] at h1 h2 h3 ⊢
      case reset => simp at h2
      all_goals first | rfl | (split <;> rfl)
    | stop k b =>
      simp only [hp] at h1 h2 h3 ⊢
      cases k <;> simp only [Sys.stopStep, Sys.lockMu] at h1 h2 h3 ⊢
      case init k => cases k <;> rfl
      case close => simp at h1
      all_goals first | rfl | (split <;> rfl)
    | wait k r => cases k <;> rfl
    | restartInit k => cases k <;> rfl
    | finish => simp only; split <;> rfl
    | call p => cases p <;> rfl
  | run g ok =>
    obtain ⟨h1, h2, h3⟩ := hl _ rfl
    simp only [Sys.lifeReads, Sys.lifeWrites] at h1 h2 h3
    simp only [Sys.next, Sys.runStep]
    cases hr : s.runs[g]? with
    | none => rfl
    | some r =>
      simp only [hr] at h1 h2 h3 ⊢
      cases hp : r.pc <;> simp only [hp, Sys.lockMu] at h1 h2 h3 ⊢
      case setListener => simp at h2
      case accept => split <;> first | rfl | (split <;> rfl)
      case initDone => unfold Sys.initDone; dsimp only; generalize s.init = n; rcases n with _ | _ | n <;> rfl
      case wgDone => unfold Sys.wgDone; dsimp only; generalize s.wg = n; rcases n with _ | _ | n <;> rfl
      all_goals first | rfl | (split <;> rfl)
  | conn c =>
    obtain ⟨h1, h2, h3⟩ := hl _ rfl
    simp only [Sys.lifeReads, Sys.lifeWrites] at h1 h2 h3
    simp only [Sys.next, Sys.connStep]
    cases hk : s.conns[c]? with
    | none => rfl
    | some k =>
      simp only [hk] at h1 h2 h3 ⊢
      cases hp : k.pc with
      | body p => cases p <;> rfl
      | ended => rfl
      | oc k =>
        cases k <;> simp only [hp, Sys.lockMu] at h1 h2 h3 ⊢
        case active => unfold Sys.activeDone; dsimp only; generalize s.active = n; rcases n with _ | n <;> rfl
        case wg => unfold Sys.wgDone; dsimp only; generalize s.wg = n; rcases n with _ | _ | n <;> rfl
        all_goals first | rfl | (split <;> rfl)
  | parentCancel => rfl

theorem clients_unread {s : Sys} {c : Sys.Choice} (hl : ∀ x, c.goroutine = some x → .clients ∉ s.lifeReads x ∧ .clients ∉ s.lifeWrites x ∧ True) (z : List (Nat × Nat)) :
    ({ s with clients := z } : Sys).next c = (s.next c).map fun s => { s with clients := z } := by
  cases c with
  | api i c =>
    obtain ⟨h1, h2, h3⟩ := hl _ rfl
    simp only [Sys.lifeReads, Sys.lifeWrites] at h1 h2 h3
    simp only [Sys.next, Sys.apiStep]
    cases hp : s.api i with
    | idle | panicked w => rfl
    | start k r =>
      simp only [hp] at h1 h2 h3 ⊢
      cases k <;> simp only [Sys.startStep, Sys.lockMu] at h1 h2 h3 ⊢
      case reset => simp at h2
      all_goals first | rfl | (split <;> rfl)
    | stop k b =>
      simp only [hp] at h1 h2 h3 ⊢
      cases k <;> simp only [Sys.stopStep, Sys.lockMu] at h1 h2 h3 ⊢
      case init k => cases k <;> rfl
      all_goals first | rfl | (split <;> rfl)
    | wait k r => cases k <;> rfl
    | restartInit k => cases k <;> rfl
    | finish => simp only; split <;> rfl
    | call p => cases p <;> rfl
  | run g ok =>
    obtain ⟨h1, h2, h3⟩ := hl _ rfl
    simp only [Sys.lifeReads, Sys.lifeWrites] at h1 h2 h3
    simp only [Sys.next, Sys.runStep]
    cases hr : s.runs[g]? with
    | none => rfl
    | some r =>
      simp only [hr] at h1 h2 h3 ⊢
      cases hp : r.pc <;> simp only [hp, Sys.lockMu] at h1 h2 h3 ⊢
      case register => simp at h1
      case accept => split <;> first | rfl | (split <;> rfl)
      case initDone => unfold Sys.initDone; dsimp only; generalize s.init = n; rcases n with _ | _ | n <;> rfl
      case wgDone => unfold Sys.wgDone; dsimp only; generalize s.wg = n; rcases n with _ | _ | n <;> rfl
      all_goals first | rfl | (split <;> rfl)
  | conn c =>
    obtain ⟨h1, h2, h3⟩ := hl _ rfl
    simp only [Sys.lifeReads, Sys.lifeWrites] at h1 h2 h3
    simp only [Sys.next, Sys.connStep]
    cases hk : s.conns[c]? with
    | none => rfl
    | some k =>
      simp only [hk] at h1 h2 h3 ⊢
      cases hp : k.pc with
      | body p => cases p <;> rfl
      | ended => rfl
      | oc k =>
        cases k <;> simp only [hp, Sys.lockMu] at h1 h2 h3 ⊢
        case delete => simp at h1
        case active => unfold Sys.activeDone; dsimp only; generalize s.active = n; rcases n with _ | n <;> rfl
        case wg => unfold Sys.wgDone; dsimp only; generalize s.wg = n; rcases n with _ | _ | n <;> rfl
        all_goals first | rfl | (split <;> rfl)
  | parentCancel => rfl

/-- The goroutine that acts accesses none of these variables in its step. -/
def LifeUntouched (s : Sys) (c : Sys.Choice) (vs : List LifeVar) : Prop := ∀ x, c.goroutine = some x → ∀ v ∈ vs, v ∉ s.lifeReads x ∧ v ∉ s.lifeWrites x

/-- **C72** is about the accesses of the mock: whether a goroutine can act, and what its step does, depends on no field of the mock but those it reads or writes.
(`km.l` and `km.cancelFn` are always set together and are one field of the model.) -/
theorem C72_reads (s : Sys) (c : Sys.Choice) :
    (LifeUntouched s c [.lane, .cancelFn] → ∀ z, ({ s with ctx := z } : Sys).next c = (s.next c).map fun s => { s with ctx := z }) ∧
    (LifeUntouched s c [.listener] → ∀ z, ({ s with listener := z } : Sys).next c = (s.next c).map fun s => { s with listener := z }) ∧
    (LifeUntouched s c [.clients] → ∀ z, ({ s with clients := z } : Sys).next c = (s.next c).map fun s => { s with clients := z }) :=
  ⟨fun h => ctx_unread fun x hx => ⟨(h x hx .lane (by simp)).1, (h x hx .cancelFn (by simp)).1, (h x hx .lane (by simp)).2⟩,
    fun h => listener_unread fun x hx => ⟨(h x hx .listener (by simp)).1, (h x hx .listener (by simp)).2, trivial⟩,
    fun h => clients_unread fun x hx => ⟨(h x hx .clients (by simp)).1, (h x hx .clients (by simp)).2, trivial⟩⟩

theorem _root_.KM.Sys.Inv.alone {s : Sys} (hi : s.Inv) {x y : Goroutine} (hx : s.holds x = true) (hy : s.holds y = true) : x = y := by
  have h1 := (hi.mu _).1 hx
  rw [(hi.mu _).1 hy] at h1
  exact (Option.some.inj h1).symm

/-- What a write of the next step is, and where. -/
theorem lifeWrites_cases {s : Sys} {x : Goroutine} {v : LifeVar} (h : v ∈ s.lifeWrites x) :
    (∃ i r, x = .api i ∧ s.api i = .start .reset r ∧ (v = .listener ∨ v = .clients)) ∨
    (∃ i r, x = .api i ∧ s.api i = .start .derive r ∧ (v = .lane ∨ v = .cancelFn)) ∨
    (∃ i b, x = .api i ∧ s.api i = .stop .close b ∧ v = .listener) ∨
    (∃ g r, x = .run g ∧ s.runs[g]? = some r ∧ r.pc = .setListener ∧ v = .listener) ∨
    (∃ g r, x = .run g ∧ s.runs[g]? = some r ∧ r.pc = .register ∧ (v = .clients ∨ v = .cxn g)) ∨
    (∃ c k, x = .conn c ∧ s.conns[c]? = some k ∧ k.pc = .oc .delete ∧ v = .clients) := by
  cases x with
  | api i =>
    unfold Sys.lifeWrites at h
    dsimp only at h
    split at h
    · next r hp => exact .inl ⟨i, r, rfl, hp, by simpa using h⟩
    · next r hp => exact .inr (.inl ⟨i, r, rfl, hp, by simpa using h⟩)
    · next b hp => exact .inr (.inr (.inl ⟨i, b, rfl, hp, by simpa using h⟩))
    · cases h
  | run g =>
    unfold Sys.lifeWrites at h
    dsimp only at h
    split at h
    · next r hr =>
      split at h
      · next hp => exact .inr (.inr (.inr (.inl ⟨g, r, rfl, hr, hp, by simpa using h⟩)))
      · next hp => exact .inr (.inr (.inr (.inr (.inl ⟨g, r, rfl, hr, hp, by simpa using h⟩))))
      · cases h
    · cases h
  | conn c =>
    unfold Sys.lifeWrites at h
    dsimp only at h
    split at h
    · next k hk =>
      split at h
      · next hp => exact .inr (.inr (.inr (.inr (.inr ⟨c, k, rfl, hk, hp, by simpa using h⟩))))
      · cases h
    · cases h

/-- Where the mutex is not held at a read of the next step. -/
theorem lifeReads_cases {s : Sys} {x : Goroutine} {v : LifeVar} (h : v ∈ s.lifeReads x) :
    s.holds x = true ∨
    (∃ i, x = .api i ∧ ((s.api i).life = true ∨ s.api i = .finish) ∧ (v = .lane ∨ v = .cancelFn)) ∨
    (∃ g r, x = .run g ∧ s.runs[g]? = some r ∧ r.pc.running = true ∧ v = .lane) ∨
    (∃ c k, x = .conn c ∧ s.conns[c]? = some k ∧ k.pc.inActive = true ∧ v = .lane) := by
  cases x with
  | api i =>
    unfold Sys.lifeReads at h
    dsimp only at h
    split at h
    · next hp => exact .inr (.inl ⟨i, rfl, .inl (by rw [hp]; rfl), .inl (by simpa using h)⟩)
    · next hp => exact .inr (.inl ⟨i, rfl, .inl (by rw [hp]; rfl), .inl (by simpa using h)⟩)
    · next hp => exact .inl (by simp [Sys.holds, hp, ApiPc.locked])
    · next hp => exact .inr (.inl ⟨i, rfl, .inl (by rw [hp]; rfl), .inr (by simpa using h)⟩)
    · next hp => exact .inr (.inl ⟨i, rfl, .inl (by rw [hp]; rfl), .inl (by simpa using h)⟩)
    · next hp => exact .inr (.inl ⟨i, rfl, .inr hp, .inr (by simpa using h)⟩)
    · cases h
  | run g =>
    unfold Sys.lifeReads at h
    dsimp only at h
    split at h
    · next r hr =>
      split at h
      · next hp => exact .inr (.inr (.inl ⟨g, r, rfl, hr, by rw [hp]; rfl, by simpa using h⟩))
      · next hp => exact .inr (.inr (.inl ⟨g, r, rfl, hr, by rw [hp]; rfl, by simpa using h⟩))
      · next hp => exact .inr (.inr (.inl ⟨g, r, rfl, hr, by rw [hp]; rfl, by simpa using h⟩))
      · next hp => exact .inl (by simp [Sys.holds, hr, hp, RunPc.locked])
      · cases h
    · cases h
  | conn c =>
    unfold Sys.lifeReads at h
    dsimp only at h
    split at h
    · next k hk =>
      split at h
      · next hp => exact .inr (.inr (.inr ⟨c, k, rfl, hk, by rw [hp]; rfl, by simpa using h⟩))
      · next hp => exact .inl (by simp [Sys.holds, hk, hp, ConnPc.locked])
      · cases h
    · cases h

theorem clients_locked {s : Sys} {x : Goroutine} {v : LifeVar} (hv : v = .clients ∨ ∃ g, v = .cxn g) (h : v ∈ s.lifeReads x ∨ v ∈ s.lifeWrites x) :
    s.holds x = true := by
  rcases h with h | h
  · rcases lifeReads_cases h with h | ⟨_, _, _, h⟩ | ⟨_, _, _, _, _, h⟩ | ⟨_, _, _, _, _, h⟩
    · exact h
    · rcases hv with rfl | ⟨g, rfl⟩ <;> rcases h with h | h <;> cases h
    · subst h; rcases hv with hv | ⟨g, hv⟩ <;> cases hv
    · subst h; rcases hv with hv | ⟨g, hv⟩ <;> cases hv
  · rcases lifeWrites_cases h with ⟨i, r, rfl, hp, _⟩ | ⟨i, r, rfl, hp, h⟩ | ⟨i, b, rfl, hp, h⟩ | ⟨g, r, rfl, hr, hp, h⟩ | ⟨g, r, rfl, hr, hp, _⟩ | ⟨c, k, rfl, hk, hp, _⟩
    · simp [Sys.holds, hp, ApiPc.locked]
    · simp [Sys.holds, hp, ApiPc.locked]
    · simp [Sys.holds, hp, ApiPc.locked]
    · subst h; rcases hv with hv | ⟨g, hv⟩ <;> cases hv
    · simp [Sys.holds, hr, hp, RunPc.locked]
    · simp [Sys.holds, hk, hp, ConnPc.locked]

/-- **C72**, the registry: in every run, whatever calls overlap, `km.clients` and the connection counters are never raced for. -/
theorem C72_registry {sv : Server} {clock : Int} {tr : List SEv} {s : Sys} (h : Sys.Run (Sys.new sv clock) tr s) {x y : Goroutine} {v : LifeVar}
    (hr : LifeRace s x y v) : v ≠ .clients ∧ ∀ g, v ≠ .cxn g := by
  have key : ¬ (v = .clients ∨ ∃ g, v = .cxn g) := fun hv =>
    hr.1 (h.whole.1.alone (clients_locked hv (.inr hr.2.1)) (clients_locked hv hr.2.2))
  exact ⟨fun e => key (.inl e), fun g e => key (.inr ⟨g, e⟩)⟩

/-- While a caller is in Start, no other caller is in FinishRequests. -/
def FinishApart (s : Sys) : Prop := ∀ i j, i ≠ j → (s.api i).inStart = true → s.api j ≠ .finish

theorem countP_two {α : Type _} {p : α → Bool} {l : List α} {i j : Nat} {x y : α} (hi : l[i]? = some x) (hj : l[j]? = some y) (hx : p x = true) (hy : p y = true)
    (hc : l.countP p ≤ 1) : i = j := by
  induction l generalizing i j with
  | nil => cases hi
  | cons a l ih =>
    rw [List.countP_cons] at hc
    cases i with
    | zero =>
      cases j with
      | zero => rfl
      | succ j =>
        simp only [List.getElem?_cons_zero, Option.some.injEq, List.getElem?_cons_succ] at hi hj
        have : 0 < l.countP p := List.countP_pos_iff.2 ⟨y, List.mem_of_getElem? hj, hy⟩
        rw [hi, if_pos hx] at hc; omega
    | succ i =>
      simp only [List.getElem?_cons_succ] at hi
      have : 0 < l.countP p := List.countP_pos_iff.2 ⟨x, List.mem_of_getElem? hi, hx⟩
      cases j with
      | zero =>
        simp only [List.getElem?_cons_zero, Option.some.injEq] at hj
        rw [hj, if_pos hy] at hc; omega
      | succ j =>
        simp only [List.getElem?_cons_succ] at hj
        rw [ih hi hj (by omega)]

/-- **C72**: as long as Start, also as part of Restart, does not overlap with another call of Start, RequestStop, WaitForTermination, Restart or FinishRequests,
no two goroutines are about to access the same variable of the mock, one of them to write it.
Missing for the full statement: calls that overlap with Start, for which it is false, `C72_false_restart`, `C72_false_listener`. -/
theorem C72_partial {sv : Server} {clock : Int} {tr : List SEv} {s : Sys} (h : RunIn Apart (Sys.new sv clock) tr s) (hf : FinishApart s) (x y : Goroutine) (v : LifeVar) :
    ¬ LifeRace s x y v := by
  rintro ⟨hne, hw, hu⟩
  obtain ⟨ha, hi, _, _, _, hA, _⟩ := h.apart
  have hatt := h.run.whole.2.1
  -- in Start, no accept loop runs
  have quiet : ∀ {i : Nat}, (s.api i).locked = true → (s.api i).starting = 1 → ∀ {g : Nat} {r : RunG}, s.runs[g]? = some r → r.pc.running = true → False := by
    intro i hl hs g r hr hp
    have hm := (hi.mu (.api i)).1 hl
    have h0 := hi.started
    have : 0 < s.runs.countP (·.pc.running) := List.countP_pos_iff.2 ⟨r, List.mem_of_getElem? hr, hp⟩
    unfold Sys.ofHolder at h0
    rw [hm] at h0
    simp only [hs] at h0
    split at h0 <;> omega
  have one : s.runs.countP (·.pc.running) ≤ 1 := by
    have h0 := hi.started
    split at h0 <;> omega
  rcases lifeWrites_cases hw with ⟨i, r, rfl, hp, hv⟩ | ⟨i, r, rfl, hp, hv⟩ | ⟨i, b, rfl, hp, rfl⟩ | ⟨g, r, rfl, hr, hp, rfl⟩ | ⟨g, r, rfl, hr, hp, hv⟩ | ⟨c, k, rfl, hk, hp, rfl⟩
  · -- Start, lines 53-54
    have hl : s.holds (.api i) = true := by simp [Sys.holds, hp, ApiPc.locked]
    rcases hu with hu | hu
    · rcases lifeReads_cases hu with h | ⟨_, _, _, h⟩ | ⟨_, _, _, _, _, h⟩ | ⟨_, _, _, _, _, h⟩
      · exact hne (hi.alone hl h)
      · rcases hv with rfl | rfl <;> rcases h with h | h <;> cases h
      · subst h; rcases hv with hv | hv <;> cases hv
      · subst h; rcases hv with hv | hv <;> cases hv
    · rcases lifeWrites_cases hu with ⟨j, _, rfl, hq, _⟩ | ⟨j, _, rfl, hq, _⟩ | ⟨j, _, rfl, hq, _⟩ | ⟨g, r', rfl, hr, hq, _⟩ | ⟨g, r', rfl, hr, hq, _⟩ | ⟨c, k, rfl, hk, hq, _⟩
      · exact hne (hi.alone hl (by simp [Sys.holds, hq, ApiPc.locked]))
      · exact hne (hi.alone hl (by simp [Sys.holds, hq, ApiPc.locked]))
      · exact hne (hi.alone hl (by simp [Sys.holds, hq, ApiPc.locked]))
      · exact quiet (i := i) (by rw [hp]; rfl) (by rw [hp]; rfl) hr (by rw [hq]; rfl)
      · exact hne (hi.alone hl (by simp [Sys.holds, hr, hq, RunPc.locked]))
      · exact hne (hi.alone hl (by simp [Sys.holds, hk, hq, ConnPc.locked]))
  · -- Start, lines 57-59
    have hl : s.holds (.api i) = true := by simp [Sys.holds, hp, ApiPc.locked]
    rcases hu with hu | hu
    · rcases lifeReads_cases hu with h | ⟨j, rfl, h | h, _⟩ | ⟨g, r', rfl, hr, hq, _⟩ | ⟨c, k, rfl, hk, hq, _⟩
      · exact hne (hi.alone hl h)
      · have := ha i j (fun e => hne (by rw [e])) (by rw [hp]; rfl)
        rw [h] at this; cases this
      · exact hf i j (fun e => hne (by rw [e])) (by rw [hp]; rfl) h
      · exact quiet (i := i) (by rw [hp]; rfl) (by rw [hp]; rfl) hr hq
      · obtain ⟨r', h1, h2⟩ := hatt c k hk hq
        exact quiet (i := i) (by rw [hp]; rfl) (by rw [hp]; rfl) h1 (attends_running h2)
    · rcases lifeWrites_cases hu with ⟨j, _, rfl, hq, _⟩ | ⟨j, _, rfl, hq, _⟩ | ⟨j, _, rfl, hq, _⟩ | ⟨g, r', rfl, hr, hq, _⟩ | ⟨g, r', rfl, hr, hq, _⟩ | ⟨c, k, rfl, hk, hq, _⟩
      · exact hne (hi.alone hl (by simp [Sys.holds, hq, ApiPc.locked]))
      · exact hne (hi.alone hl (by simp [Sys.holds, hq, ApiPc.locked]))
      · exact hne (hi.alone hl (by simp [Sys.holds, hq, ApiPc.locked]))
      · exact quiet (i := i) (by rw [hp]; rfl) (by rw [hp]; rfl) hr (by rw [hq]; rfl)
      · exact hne (hi.alone hl (by simp [Sys.holds, hr, hq, RunPc.locked]))
      · exact hne (hi.alone hl (by simp [Sys.holds, hk, hq, ConnPc.locked]))
  · -- RequestStop, lines 76-80
    have hl : s.holds (.api i) = true := by simp [Sys.holds, hp, ApiPc.locked]
    rcases hu with hu | hu
    · rcases lifeReads_cases hu with h | ⟨_, _, _, h⟩ | ⟨_, _, _, _, _, h⟩ | ⟨_, _, _, _, _, h⟩
      · exact hne (hi.alone hl h)
      · rcases h with h | h <;> cases h
      · cases h
      · cases h
    · rcases lifeWrites_cases hu with ⟨j, _, rfl, hq, _⟩ | ⟨j, _, rfl, hq, _⟩ | ⟨j, _, rfl, hq, _⟩ | ⟨g, r', rfl, hr, hq, _⟩ | ⟨g, r', rfl, hr, hq, _⟩ | ⟨c, k, rfl, hk, hq, _⟩
      · exact hne (hi.alone hl (by simp [Sys.holds, hq, ApiPc.locked]))
      · exact hne (hi.alone hl (by simp [Sys.holds, hq, ApiPc.locked]))
      · exact hne (hi.alone hl (by simp [Sys.holds, hq, ApiPc.locked]))
      · have := hA.pastInit i (by rw [hp]; rfl) g r' hr
        rw [hq] at this; cases this
      · exact hne (hi.alone hl (by simp [Sys.holds, hr, hq, RunPc.locked]))
      · exact hne (hi.alone hl (by simp [Sys.holds, hk, hq, ConnPc.locked]))
  · -- the accept loop, line 122
    rcases hu with hu | hu
    · rcases lifeReads_cases hu with h | ⟨_, _, _, h⟩ | ⟨_, _, _, _, _, h⟩ | ⟨_, _, _, _, _, h⟩
      · -- `km.listener` is read with the mutex held only in RequestStop
        cases y with
        | api j =>
          unfold Sys.lifeReads at hu
          dsimp only at hu
          split at hu
          · simp at hu
          · simp at hu
          · next hq =>
            have := hA.pastInit j (by rw [hq]; rfl) g r hr
            rw [hp] at this; cases this
          · simp at hu
          · simp at hu
          · simp at hu
          · cases hu
        | run g' =>
          unfold Sys.lifeReads at hu
          dsimp only at hu
          split at hu
          · split at hu <;> simp at hu
          · cases hu
        | conn c =>
          unfold Sys.lifeReads at hu
          dsimp only at hu
          split at hu
          · split at hu <;> simp at hu
          · cases hu
      · rcases h with h | h <;> cases h
      · cases h
      · cases h
    · rcases lifeWrites_cases hu with ⟨j, _, rfl, hq, _⟩ | ⟨j, _, rfl, hq, h⟩ | ⟨j, _, rfl, hq, _⟩ | ⟨g', r', rfl, hr', hq, _⟩ | ⟨g', r', rfl, hr', hq, h⟩ | ⟨c, k, rfl, hk, hq, h⟩
      · exact quiet (i := j) (by rw [hq]; rfl) (by rw [hq]; rfl) hr (by rw [hp]; rfl)
      · rcases h with h | h <;> cases h
      · have := hA.pastInit j (by rw [hq]; rfl) g r hr
        rw [hp] at this; cases this
      · exact hne (by rw [countP_two (p := (·.pc.running)) hr hr' (by rw [hp]; rfl) (by rw [hq]; rfl) one])
      · rcases h with h | h <;> cases h
      · cases h
  · refine hne (hi.alone (clients_locked ?_ (.inr hw)) (clients_locked ?_ hu)) <;> rcases hv with rfl | rfl <;> first | exact .inl rfl | exact .inr ⟨_, rfl⟩
  · exact hne (hi.alone (clients_locked (.inl rfl) (.inr hw)) (clients_locked (.inl rfl) hu))

/-- The hypotheses of `C72_partial`: a single caller; Restart is in Start. -/
example : ∃ tr s, RunIn Apart (Sys.new ⟨9092, []⟩ 0) tr s ∧ FinishApart s ∧ s.lifeWrites (.api 0) = [.lane, .cancelFn] := by
  obtain ⟨tr, h⟩ := solo_played (ps := starts 0 ++ opens 0 ++ caller 0 .restart 8 ++ List.replicate 4 (.run 0) ++ caller 0 .restart 6) (by decide +kernel)
  refine ⟨tr, _, h, fun i j hij hi hj => ?_, rfl⟩
  cases i with
  | zero => cases j with
    | zero => exact hij rfl
    | succ j => cases hj
  | succ i => cases hi

/-- Restart, up to line 57 in Start. -/
def restarting : List Pick := starts 0 ++ opens 0 ++ caller 0 .restart 8 ++ List.replicate 4 (.run 0) ++ caller 0 .restart 6

/-- **C72** is false when Restart overlaps with other calls: Start assigns `km.cancelFn` (line 59) while FinishRequests reads it, and `km.l` (line 58) while
WaitForTermination reads it. -/
theorem C72_false_restart : (∃ s : Sys, s.Reachable ∧ LifeRace s (.api 0) (.api 1) .cancelFn) ∧ ∃ s : Sys, s.Reachable ∧ LifeRace s (.api 0) (.api 1) .lane :=
  ⟨⟨_, after_reachable (restarting ++ caller 1 .finishRequests 1), by unfold LifeRace; decide +kernel⟩,
    ⟨_, after_reachable (restarting ++ caller 1 .waitForTermination 1), by unfold LifeRace; decide +kernel⟩⟩

/-- RequestStop, called when Start is not yet at line 62, does not wait for the accept loop. -/
def stoppedEarly : List Pick := caller 1 .requestStop 2 ++ caller 0 .start 3 ++ caller 1 .requestStop 2 ++ caller 0 .start 7 ++ [.run 0] ++ caller 1 .requestStop 1

/-- **C72** is false when RequestStop overlaps with Start: the accept loop assigns `km.listener` (line 122) while RequestStop reads it. -/
theorem C72_false_listener : ∃ s : Sys, s.Reachable ∧ LifeRace s (.run 0) (.api 1) .listener :=
  ⟨_, after_reachable stoppedEarly, by unfold LifeRace; decide +kernel⟩

end KM.Props
