import Verif.Spec.Life
import Verif.Props.Ready
import Verif.Props.Live
/-
C117: a mock that one goroutine starts and stops goes up and down as it is told.
-/
namespace KM.Props
open KM Spec

variable {sv : Server} {clock : Int} {ss : Nat → Sys} {es : Nat → SEv}

/-- An endless fair run in which no goroutine but `i` calls Start, RequestStop, WaitForTermination or Restart. -/
structure Managed (sv : Server) (clock : Int) (i : Nat) (ss : Nat → Sys) (es : Nat → SEv) : Prop extends KM.Endless sv clock ss es where
  others : ∀ n j, j ≠ i → ((ss n).api j).life = false

/-- What is seen of the mock in each mode. `new`: no accept loop has been started, and there are no connections. `up`: an accept loop opens its listener, or accepts connections; nobody has closed the listener.
`stopping`: every listener that was opened or will be is closed, and every connection that is still served has its context cancelled. `down`: so, and every accept loop and every handler has ended. -/
def _root_.KM.Spec.Mode.Holds : Mode → Sys → Prop
  | .new, s => s.runs = [] ∧ s.conns = []
  | .up, s => s.stopped = false ∧ ∃ g, Rising g s
  | .stopping, s => s.stopped = true ∧ s.runs ≠ [] ∧ (∀ g, g < s.runs.length → g ∈ s.closes) ∧ ∀ k ∈ s.conns, k.pc.inActive = true → s.isDone k.ctx = true
  | .down, s => s.stopped = true ∧ s.runs ≠ [] ∧ (∀ g, g < s.runs.length → g ∈ s.closes) ∧ (∀ r ∈ s.runs, r.pc = .ended) ∧ ∀ k ∈ s.conns, SignedOff k

/-! ### The modes in terms of the variables of the mock -/

/-- The mode that the variables of the mock tell. -/
def raw : Mode → Sys → Prop
  | .new, s => s.runs = []
  | .up, s => s.runs ≠ [] ∧ s.stopped = false
  | .stopping, s => s.runs ≠ [] ∧ s.stopped = true
  | .down, s => s.runs ≠ [] ∧ s.stopped = true ∧ s.wg = 0

/-- A mock that no stop has been requested of is started, unless it is new. -/
def Started (s : Sys) : Prop := s.stopped = false → s.started = true ∨ s.runs = []

/-- There is a context only when Start has been called. -/
def Contexts (s : Sys) : Prop := s.runs = [] → (∀ j, derived (s.api j) = false) → s.ctx = none

theorem starting_started {s : Sys} (hi : s.Inv) {i : Nat} (hp : (s.api i).starting = 1) : s.started = true := by
  have hm : s.mu = some (.api i) := by
    refine (hi.mu _).1 ?_
    revert hp
    show _ → (s.api i).locked = true
    intro hp
    cases hl : (s.api i).locked with
    | true => rfl
    | false => rw [Sys.starting_locked _ hl] at hp; cases hp
  have := hi.started
  rw [Sys.ofHolder_of_mu hm, hp] at this
  split at this
  · assumption
  · omega

theorem step_ctx_from {s s' : Sys} {e : SEv} (h : Sys.Step s e s') : s'.ctx = s.ctx ∨ ∃ i r, e.of = some (.api i) ∧ s.api i = .start .derive r := by
  cases h with
  | @life _ c hn =>
    cases c with
    | api i c =>
      rcases apiStep_ctx hn with h | ⟨r, h, _⟩ | ⟨_, _, h, _⟩
      · exact .inl h.1
      · exact .inr ⟨i, r, rfl, h⟩
      · exact .inl h
    | run g ok => exact .inl (runStep_frame hn).ctx
    | conn c => exact .inl (connStep_frame hn).ctx
    | parentCancel => cases hn; exact .inl rfl
  | _ => exact .inl rfl

/-- Who clears `started`. -/
theorem step_unstarted {s s' : Sys} {e : SEv} (h : Sys.Step s e s') (h1 : s.started = true) (h2 : s'.started = false) :
    ∃ (g : Nat) (r : RunG), s.runs[g]? = some r ∧ r.pc = .storeStarted := by
  have no : s'.started = s.started → ∃ (g : Nat) (r : RunG), s.runs[g]? = some r ∧ r.pc = .storeStarted := fun e => by rw [e, h1] at h2; cases h2
  cases h with
  | @life _ c hn =>
    cases c with
    | api i c =>
      refine no ?_
      unfold Sys.next Sys.apiStep at hn
      dsimp only at hn
      split at hn
      · cases hn; rfl
      · cases hn; rfl
      · next k r _ =>
        cases k <;> simp only [Sys.startStep, Sys.lockMu] at hn <;> (try split at hn) <;> cases hn <;> rfl
      · next k b hk =>
        clear hk
        cases k <;> simp only [Sys.stopStep, Sys.lockMu] at hn
        case init k => cases k <;> cases hn <;> rfl
        all_goals (try split at hn) <;> cases hn <;> rfl
      · next k r hk => clear hk; cases k <;> cases hn <;> rfl
      · next k hk => clear hk; cases k <;> cases hn <;> rfl
      · split at hn <;> cases hn <;> rfl
      · cases hn; rfl
      · cases hn
      · cases hn
    | run g ok =>
      simp only [Sys.next, Sys.runStep] at hn
      split at hn
      · cases hn
      next r hr =>
      cases hp : r.pc <;> simp only [hp, Sys.lockMu] at hn
      case storeStarted => exact ⟨g, r, hr, hp⟩
      case initDone =>
        cases he : s.initDone <;> rw [he] at hn <;> cases hn
        exact no (initDone_le he).2.2
      case wgDone =>
        cases he : s.wgDone <;> rw [he] at hn <;> cases hn
        exact no (wgDone_le he).2.2
      case accept =>
        split at hn
        · cases hn; exact no rfl
        · split at hn <;> cases hn
          exact no rfl
      all_goals
        (try split at hn) <;> cases hn
        all_goals exact no rfl
    | conn c =>
      refine no ?_
      simp only [Sys.next, Sys.connStep] at hn
      split at hn
      · cases hn
      split at hn
      · cases hn; rfl
      · cases hn
      · cases hn
      · unfold Sys.lockMu at hn; split at hn <;> cases hn; rfl
      · split at hn <;> cases hn; rfl
      · cases he : s.activeDone <;> rw [he] at hn <;> cases hn
        exact (activeDone_le he).2.2
      · cases he : s.wgDone <;> rw [he] at hn <;> cases hn
        exact (wgDone_le he).2.2
      · cases hn; rfl
      · cases hn
    | parentCancel => cases hn; exact no rfl
  | _ => exact no rfl

theorem step_Started {s s' : Sys} {e : SEv} (h : Sys.Step s e s') (hi : LifeInv s) (hS : Started s) : Started s' := by
  intro hst
  have ef := step_effects h
  -- `started` is not cleared while the mock is up
  have stays : s.started = true → (s.stopped = false ∨ ∃ i r, s.api i = .start .unstop r) → s'.started = true := by
    intro h1 h2
    cases h3 : s'.started with
    | true => rfl
    | false =>
      exfalso
      obtain ⟨g, r, g1, g2⟩ := step_unstarted h h1 h3
      rcases h2 with h2 | ⟨i, b, h2⟩
      · exact hi.apart.open' h2 g r g1 (by rw [g2]; rfl) (hi.leaving g r g1 (.inr (.inl g2)))
      · have := starting_alone hi.inv (i := i) (by rw [h2]; rfl) g1
        rw [g2] at this; cases this
  rcases ef.stopped with e | ⟨_, _, _, _, e⟩ | ⟨j, r, e, _⟩
  · rw [e] at hst
    rcases hS hst with h1 | h1
    · exact .inl (stays h1 (.inl hst))
    · rcases ef.runs with h2 | ⟨j, r, h2⟩
      · right
        rw [h1] at h2
        exact List.length_eq_zero_iff.1 h2
      · exact .inl (stays (starting_started hi.inv (i := j) (by rw [h2]; rfl)) (.inl hst))
  · rw [e] at hst; cases hst
  · exact .inl (stays (starting_started hi.inv (i := j) (by rw [e]; rfl)) (.inr ⟨j, r, e⟩))

theorem step_Contexts {s s' : Sys} {e : SEv} (h : Sys.Step s e s') (hC : Contexts s) : Contexts s' := by
  intro h1 h2
  have h0 : s.runs = [] := by
    have := step_runs_length h
    rw [h1] at this
    exact List.length_eq_zero_iff.1 (Nat.le_zero.1 this)
  by_cases hd : ∃ j, derived (s.api j) = true
  · exfalso
    obtain ⟨j, hd⟩ := hd
    have hj := h2 j
    rcases step_api h j with ⟨he, hn⟩ | ⟨_, hn⟩
    · generalize hq : s.api j = pc at hn hd
      generalize s'.api j = pc' at hn hj
      cases hn with
      | addWg | addInit => cases hj
      | spawn r =>
        rcases step_by_api h he with ⟨c, h3⟩ | ⟨_, _, _, _, h3, _⟩
        · simp only [Sys.apiStep, hq, Sys.startStep] at h3
          cases h3
          simp [Sys.setApi] at h1
        · rw [hq] at h3; cases h3
      | _ => cases hd
    · have : s'.api j = s.api j := hn.awake (by revert hd; generalize s.api j = pc; intro hd; cases pc <;> first | rfl | cases hd)
        (by revert hd; generalize s.api j = pc; intro hd; cases pc <;> first | rfl | cases hd)
      rw [this, hd] at hj; cases hj
  · have h3 := hC h0 fun j => by
      cases hx : derived (s.api j) with
      | false => rfl
      | true => exact absurd ⟨j, hx⟩ hd
    rcases step_ctx_from h with h4 | ⟨j, r, h4, h5⟩
    · rw [h4]; exact h3
    · exfalso
      have hj := h2 j
      rcases step_api h j with ⟨_, hn⟩ | ⟨hx, _⟩
      · rw [h5] at hn
        generalize s'.api j = pc' at hn hj
        cases hn; cases hj
      · exact hx h4

/-! ### Between the steps of the manager -/

theorem Managed.orderly {i : Nat} (h : Managed sv clock i ss es) : Orderly sv clock ss es where
  toEndless := h.toEndless
  apart := fun n a b hab ha => by
    by_cases e : a = i
    · subst e; exact h.others n b (Ne.symm hab)
    · have := h.others n a e
      revert this ha; generalize (ss n).api a = pc; intro ha this
      cases pc <;> first | cases ha; done | cases this

theorem Managed.only {i : Nat} (h : Managed sv clock i ss es) {n j : Nat} (hl : ((ss n).api j).life = true) : j = i :=
  Classical.byContradiction fun e => by rw [h.others n j e] at hl; cases hl

theorem Managed.inv {i : Nat} (h : Managed sv clock i ss es) (n : Nat) : LifeInv (ss n) := h.orderly.inv n

theorem Managed.started {i : Nat} (h : Managed sv clock i ss es) (n : Nat) : Started (ss n) ∧ Contexts (ss n) := by
  induction n with
  | zero => rw [h.first]; exact ⟨fun _ => .inr rfl, fun _ _ => rfl⟩
  | succ n ih => exact ⟨step_Started (h.step n) (h.inv n) ih.1, step_Contexts (h.step n) ih.2⟩

/-- The steps of the manager that change the mode. -/
def turning : ApiPc → Bool
  | .stop .swap _ | .start .unstop _ | .start .addWg _ | .start .spawn _ => true
  | _ => false

theorem Managed.length_same {i : Nat} (h : Managed sv clock i ss es) {n : Nat} (hp : ∀ r, (ss n).api i ≠ .start .spawn r) :
    (ss (n + 1)).runs.length = (ss n).runs.length := by
  rcases (step_effects (h.step n)).runs with e | ⟨j, r, e⟩
  · exact e
  · have := h.only (n := n) (j := j) (by rw [e]; rfl)
    subst this; exact absurd e (hp r)

theorem Managed.wg_stays {i : Nat} (h : Managed sv clock i ss es) {n : Nat} (hp : ∀ r, (ss n).api i ≠ .start .addWg r) (h0 : (ss n).wg = 0) : (ss (n + 1)).wg = 0 := by
  rcases (step_effects (h.step n)).wg with e | ⟨j, r, e⟩ | ⟨g, r, e, hr⟩
  · omega
  · have := h.only (n := n) (j := j) (by rw [e]; rfl)
    subst this; exact absurd e (hp r)
  · have := (wg_zero (h.inv n).inv h0).1 r (List.mem_of_getElem? e)
    rw [hr] at this; cases this

theorem Managed.stopped_same {i : Nat} (h : Managed sv clock i ss es) {n : Nat} (h1 : ∀ b, (ss n).api i ≠ .stop .swap b) (h2 : ∀ r, (ss n).api i ≠ .start .unstop r) :
    (ss (n + 1)).stopped = (ss n).stopped := by
  rcases (step_effects (h.step n)).stopped with e | ⟨j, b, _, e, _⟩ | ⟨j, r, e, _⟩
  · exact e
  · have := h.only (n := n) (j := j) (by rw [e]; rfl)
    subst this; exact absurd e (h1 b)
  · have := h.only (n := n) (j := j) (by rw [e]; rfl)
    subst this; exact absurd e (h2 r)

theorem length_ne {α : Type _} {l l' : List α} (h : l'.length = l.length) : (l' = [] ↔ l = []) := by
  rw [← List.length_eq_zero_iff, ← List.length_eq_zero_iff, h]

theorem Managed.raw_step {i : Nat} (h : Managed sv clock i ss es) {n : Nat} (hp : turning ((ss n).api i) = false) {μ : Mode} (hm : raw μ (ss n)) : raw μ (ss (n + 1)) := by
  have hl := h.length_same (n := n) fun r e => by rw [e] at hp; cases hp
  have hs := h.stopped_same (n := n) (fun r e => by rw [e] at hp; cases hp) fun r e => by rw [e] at hp; cases hp
  have hw := h.wg_stays (n := n) fun r e => by rw [e] at hp; cases hp
  have := length_ne hl
  cases μ with
  | new => exact this.2 hm
  | up => exact ⟨fun e => hm.1 (this.1 e), hs.trans hm.2⟩
  | stopping => exact ⟨fun e => hm.1 (this.1 e), hs.trans hm.2⟩
  | down => exact ⟨fun e => hm.1 (this.1 e), hs.trans hm.2.1, hw hm.2.2⟩

/-- While the manager is elsewhere, the mode stays. -/
theorem Managed.raw_stays {i : Nat} (h : Managed sv clock i ss es) {n m : Nat} (hnm : n ≤ m) (hp : ∀ j, n ≤ j → j < m → turning ((ss j).api i) = false) {μ : Mode}
    (hm : raw μ (ss n)) : raw μ (ss m) := by
  induction hnm with
  | refl => exact hm
  | @step m hnm ih => exact h.raw_step (hp m hnm (Nat.lt_succ_self m)) (ih fun j a b => hp j a (by omega))

theorem not_starting {i : Nat} (h : Managed sv clock i ss es) {n : Nat} (hp : ((ss n).api i).inStart = false) (j : Nat) : ((ss n).api j).inStart = false := by
  by_cases e : j = i
  · subst e; exact hp
  · have := h.others n j e
    revert this; generalize (ss n).api j = pc; intro this
    cases pc <;> first | rfl | cases this

/-- What is seen in a mode that the variables tell. -/
theorem Managed.holds {i : Nat} (h : Managed sv clock i ss es) {n : Nat} (hp : ((ss n).api i).life = false) (μ : Mode) : μ.Holds (ss n) ↔ raw μ (ss n) := by
  have hi := h.inv n
  have hs : ∀ j, ((ss n).api j).life = false := fun j => if e : j = i then by rw [e]; exact hp else h.others n j e
  have h0 : ∀ f : ApiPc → Nat, (∀ pc, pc.life = false → f pc = 0) → (ss n).ofHolder f = 0 := by
    intro f hf
    unfold Sys.ofHolder
    split
    · next j _ => exact hf _ (hs j)
    · rfl
  have hst := h0 ApiPc.starting fun pc hp => by cases pc <;> first | rfl | cases hp
  have hwg := h0 ApiPc.startingWg fun pc hp => by cases pc <;> first | rfl | cases hp
  have hno : ∀ j, inStop ((ss n).api j) = false := fun j => by
    have := hs j
    revert this; generalize (ss n).api j = pc; intro this
    cases pc <;> first | rfl | cases this
  have closed : (ss n).stopped = true → ∀ g, g < (ss n).runs.length → g ∈ (ss n).closes := by
    intro h1 g hg
    have hg := List.getElem?_eq_getElem hg
    cases hr : ((ss n).runs[g]).pc.running with
    | true => exact (hi.apart.stop h1 hno g _ hg hr).1
    | false => exact hi.leaving g _ hg (.inr (.inr hr))
  have ended : (ss n).wg = 0 → (∀ r ∈ (ss n).runs, r.pc = .ended) ∧ ∀ k ∈ (ss n).conns, SignedOff k := by
    intro h1
    obtain ⟨a, b⟩ := wg_zero hi.inv h1
    refine ⟨a, fun k hk => ?_⟩
    have := b k hk
    unfold ConnPc.inWg at this
    split at this
    · next e => exact .inl e
    · next e => exact .inr e
    · cases this
  have rising : (ss n).runs ≠ [] → (ss n).stopped = false → ∃ g, Rising g (ss n) := by
    intro h1 h2
    have h3 := hi.inv.started
    rw [((h.started n).1 h2).resolve_right h1, hst] at h3
    obtain ⟨r, r1, r2⟩ := List.countP_pos_iff.1 (show 0 < (ss n).runs.countP (·.pc.running) by simp at h3; omega)
    obtain ⟨g, hg⟩ := List.getElem?_of_mem r1
    have ho := hi.apart.open' h2 g r hg r2
    have hl := hi.leaving g r hg
    refine ⟨g, ⟨r, hg, ?_⟩, ho⟩
    revert r2 hl; generalize r.pc = pc; intro hr hl
    cases pc <;> first | exact .inl rfl | exact .inr rfl | exact absurd (hl (.inl rfl)) ho | exact absurd (hl (.inr (.inl rfl))) ho | cases hr
  cases μ with
  | new =>
    refine ⟨fun h => h.1, fun (h : (ss n).runs = []) => ⟨h, ?_⟩⟩
    cases hc : (ss n).conns with
    | nil => rfl
    | cons k ks =>
      have := hi.inv.gen 0 k (by rw [hc]; rfl)
      rw [h] at this; cases this
  | up => exact ⟨fun ⟨a, g, b⟩ => ⟨fun e => (by obtain ⟨r, hr, _⟩ := b.pc; rw [e] at hr; cases hr), a⟩, fun ⟨a, b⟩ => ⟨b, rising a b⟩⟩
  | stopping =>
    refine ⟨fun h => ⟨h.2.1, h.1⟩, fun ⟨a, b⟩ => ⟨b, a, closed b, fun k hk ha => ?_⟩⟩
    obtain ⟨c, hc⟩ := List.getElem?_of_mem hk
    obtain ⟨r, r1, r2⟩ := hi.attended c k hc ha
    rw [hi.ctx.conn c k hc]
    exact (hi.apart.stop b hno _ r r1 (by revert r2; generalize r.pc = pc; intro r2; cases pc <;> first | rfl | cases r2)).2
  | down =>
    refine ⟨fun ⟨a, b, _, c, d⟩ => ⟨b, a, ?_⟩, fun ⟨a, b, c⟩ => ⟨b, a, closed b, ended c⟩⟩
    rw [hi.inv.wg, hwg, List.countP_eq_zero.2, List.countP_eq_zero.2]
    · intro k hk
      rcases d k hk with e | e <;> rw [e] <;> decide
    · intro r hr
      rw [c r hr]; decide

/-! ### The calls -/

theorem starting_zero {i : Nat} (h : Managed sv clock i ss es) {n : Nat} {f : ApiPc → Nat} (hf : ∀ pc : ApiPc, pc.life = false → f pc = 0) (hp : f ((ss n).api i) = 0) :
    (ss n).ofHolder f = 0 := by
  unfold Sys.ofHolder
  split
  · next j _ =>
    by_cases e : j = i
    · rw [e]; exact hp
    · exact hf _ (h.others n j e)
  · rfl

/-- At line 49 of Start, a mock that is new or down is not started. -/
theorem Managed.unstarted {i : Nat} (h : Managed sv clock i ss es) {n : Nat} (hp : ((ss n).api i).starting = 0) (hm : (ss n).runs = [] ∨ (ss n).wg = 0) :
    (ss n).started = false := by
  have h1 := (h.inv n).inv.started
  rw [starting_zero h (fun pc hp => by cases pc <;> first | rfl | cases hp) hp] at h1
  have h2 : (ss n).runs.countP (·.pc.running) = 0 := by
    refine List.countP_eq_zero.2 fun r hr => ?_
    rcases hm with hm | hm
    · rw [hm] at hr; cases hr
    · rw [(wg_zero (h.inv n).inv hm).1 r hr]; decide
  rw [h2] at h1
  cases hs : (ss n).started with
  | false => rfl
  | true => rw [hs] at h1; cases h1

/-- Where Start is, and in which mode the mock is meanwhile. -/
inductive InStart (μ : Mode) (s : Sys) : StartPc → Prop where
  | lock (h : raw μ s) : InStart μ s .lock
  | swap (h : raw μ s) : InStart μ s .swap
  | twice (h : raw μ s) (hm : μ = .up ∨ μ = .stopping) : InStart μ s .panicUnlock
  | reset (hm : μ ≠ .up) : InStart μ s .reset
  | unstop (hm : μ ≠ .up) : InStart μ s .unstop
  | derive (hm : μ ≠ .up) : InStart μ s .derive
  | addWg (hm : μ ≠ .up) : InStart μ s .addWg
  | addInit (hm : μ ≠ .up) : InStart μ s .addInit
  | spawn (hm : μ ≠ .up) : InStart μ s .spawn
  | unlock (hm : μ ≠ .up) (hr : s.runs ≠ []) : InStart μ s .unlock

theorem Managed.inStart {i : Nat} (h : Managed sv clock i ss es) {n : Nat} {μ : Mode} {k : StartPc} {r : Bool} (hp : (ss n).api i = .start k r) (hs : InStart μ (ss n) k) :
    (∃ k', (ss (n + 1)).api i = .start k' r ∧ InStart μ (ss (n + 1)) k') ∨
    (r = false ∧ (ss (n + 1)).api i = .panicked .startTwice ∧ raw μ (ss (n + 1)) ∧ (μ = .up ∨ μ = .stopping)) ∨
    ((ss (n + 1)).api i = (if r then .restartInit .enter else .idle) ∧ raw .up (ss (n + 1)) ∧ μ ≠ .up) := by
  rcases step_api (h.step n) i with ⟨he, hn⟩ | ⟨_, hn⟩
  · rw [hp] at hn
    have unspawn : ∀ r', (ss n).api i = .start .spawn r' → (ss (n + 1)).runs ≠ [] := by
      intro r' hq
      rcases step_by_api (h.step n) he with ⟨c, h3⟩ | ⟨_, _, _, _, h3, _⟩
      · simp only [Sys.apiStep, hq, Sys.startStep, Out.ok.injEq] at h3
        rw [← h3]; simp [Sys.setApi]
      · rw [hq] at h3; cases h3
    have tw := (h.inv n).apart.twice i
    have rn := (h.inv n).apart.renewed i
    have keep := h.raw_step (n := n) (μ := μ)
    have keepUp := h.raw_step (n := n) (μ := .up)
    have un := h.unstarted (n := n)
    have st := (h.started n).1
    rw [hp] at unspawn tw rn keep un keepUp
    generalize (ss (n + 1)).api i = pc' at hn
    cases hs with
    | lock hm => cases hn; exact .inl ⟨_, rfl, .swap (keep rfl hm)⟩
    | swap hm =>
      cases hn with
      | twice _ hb =>
        refine .inl ⟨_, rfl, .twice (keep rfl hm) ?_⟩
        cases μ with
        | up => exact .inl rfl
        | stopping => exact .inr rfl
        | new => rw [un rfl (.inl hm)] at hb; cases hb
        | down => rw [un rfl (.inr hm.2.2)] at hb; cases hb
      | swapStart _ hb =>
        refine .inl ⟨_, rfl, .reset ?_⟩
        rintro rfl
        rcases st hm.2 with e | e
        · rw [hb] at e; cases e
        · exact hm.1 e
    | twice hm h' =>
      cases hn
      cases r with
      | true => exact absurd rfl tw
      | false => exact .inr (.inl ⟨rfl, rfl, keep rfl hm, h'⟩)
    | reset h' => cases hn; exact .inl ⟨_, rfl, .unstop h'⟩
    | unstop h' => cases hn; exact .inl ⟨_, rfl, .derive h'⟩
    | derive h' => cases hn; exact .inl ⟨_, rfl, .addWg h'⟩
    | addWg h' => cases hn; exact .inl ⟨_, rfl, .addInit h'⟩
    | addInit h' => cases hn; exact .inl ⟨_, rfl, .spawn h'⟩
    | spawn h' => cases hn; exact .inl ⟨_, rfl, .unlock h' (unspawn _ rfl)⟩
    | unlock h' hr =>
      have hu : raw .up (ss (n + 1)) := keepUp rfl ⟨hr, rn rfl⟩
      cases hn with
      | started => exact .inr (.inr ⟨rfl, hu, h'⟩)
      | restarted => exact .inr (.inr ⟨rfl, hu, h'⟩)
  · have hn := hn.awake (by rw [hp]; rfl) (by rw [hp]; rfl)
    refine .inl ⟨k, hn.trans hp, ?_⟩
    have keep := fun hx => h.raw_step (n := n) (μ := μ) (by rw [hp]; exact hx)
    cases hs with
    | lock hm => exact .lock (keep rfl hm)
    | swap hm => exact .swap (keep rfl hm)
    | twice hm h' => exact .twice (keep rfl hm) h'
    | reset h' => exact .reset h'
    | unstop h' => exact .unstop h'
    | derive h' => exact .derive h'
    | addWg h' => exact .addWg h'
    | addInit h' => exact .addInit h'
    | spawn h' => exact .spawn h'
    | unlock h' hr => exact .unlock h' fun e => hr ((length_ne (h.length_same fun _ e => by rw [hp] at e; cases e)).1 e)

/-- Start, called by a test or by Restart. -/
theorem Managed.start {i : Nat} (h : Managed sv clock i ss es) {n : Nat} {μ : Mode} {r : Bool} (hp : (ss n).api i = .start .lock r) (hm : raw μ (ss n)) :
    ∃ m, n < m ∧ (∀ j, n ≤ j → j < m → ∃ k, (ss j).api i = .start k r) ∧
      ((r = false ∧ (ss m).api i = .panicked .startTwice ∧ raw μ (ss m) ∧ (μ = .up ∨ μ = .stopping)) ∨
       ((ss m).api i = (if r then .restartInit .enter else .idle) ∧ raw .up (ss m) ∧ μ ≠ .up)) := by
  obtain ⟨m, a1, a2, a3⟩ := h.orderly.start_next (k := .lock) (r := r) (L := 0) hp (Nat.zero_le _) (.inl rfl)
  have ins : ∀ j, n ≤ j → j < m → ∃ k, (ss j).api i = .start k r ∧ InStart μ (ss j) k := by
    intro j hj
    induction hj with
    | refl => intro _; exact ⟨_, hp, .lock hm⟩
    | @step j hj ih =>
      intro hjm
      obtain ⟨k, h1, h2⟩ := ih (by omega)
      obtain ⟨k', hk'⟩ := a3 (j + 1) (Nat.le_succ_of_le hj) hjm
      rcases h.inStart h1 h2 with e | ⟨_, e, _⟩ | ⟨e, _⟩
      · exact e
      · rw [e] at hk'; cases hk'
      · rw [e] at hk'; cases r <;> cases hk'
  obtain ⟨m, rfl⟩ : ∃ x, m = x + 1 := ⟨m - 1, by omega⟩
  obtain ⟨k, h1, h2⟩ := ins m (by omega) (by omega)
  refine ⟨m + 1, a1, a3, ?_⟩
  rcases h.inStart h1 h2 with ⟨k', e, _⟩ | e | e
  · exfalso
    rcases a2 with ⟨_, e'⟩ | ⟨e', _⟩
    · rw [e] at e'; cases e'
    · rw [e] at e'; cases r <;> cases e'
  · exact .inl e
  · exact .inr e

theorem raw_ne {μ : Mode} {s : Sys} (hm : raw μ s) (h : μ ≠ .new) : s.runs ≠ [] := by
  cases μ with
  | new => exact absurd rfl h
  | _ => exact hm.1

/-- The mode after a stop has been requested. -/
def Mode.stop : Mode → Mode
  | .up => .stopping
  | μ => μ

/-- RequestStop, called by a test or as a part of another function. -/
theorem Managed.stop {i : Nat} (h : Managed sv clock i ss es) {n : Nat} {μ : Mode} {b : StopBy} (hp : (ss n).api i = .stop .swap b) (hm : raw μ (ss n)) :
    ∃ m, n < m ∧ (∀ j, n ≤ j → j < m → ∃ k, (ss j).api i = .stop k b) ∧ (ss m).api i = b.next ∧ raw (Mode.stop μ) (ss m) := by
  obtain ⟨m, a1, a2, a3, a4⟩ := h.orderly.stop_next hp
  refine ⟨m, a1, a4, a2, ?_⟩
  have same : ∀ j, n ≤ j → j ≤ m → (ss j).runs.length = (ss n).runs.length ∧ ((ss n).wg = 0 → (ss j).wg = 0) := by
    intro j hj
    induction hj with
    | refl => intro _; exact ⟨rfl, id⟩
    | @step j hj ih =>
      intro hjm
      obtain ⟨i1, i2⟩ := ih (by omega)
      obtain ⟨k, hk⟩ := a4 j hj hjm
      exact ⟨(h.length_same fun _ e => by rw [hk] at e; cases e).trans i1, fun e => h.wg_stays (fun _ e => by rw [hk] at e; cases e) (i2 e)⟩
  obtain ⟨s1, s2⟩ := same m (by omega) (Nat.le_refl _)
  have hl := length_ne s1
  cases μ with
  | new => exact hl.2 hm
  | up => exact ⟨fun e => hm.1 (hl.1 e), a3⟩
  | stopping => exact ⟨fun e => hm.1 (hl.1 e), a3⟩
  | down => exact ⟨fun e => hm.1 (hl.1 e), a3, s2 hm.2.2⟩

/-- A mock that is up has goroutines to wait for. -/
theorem Managed.up_wg {i : Nat} (h : Managed sv clock i ss es) {n : Nat} (hp : ((ss n).api i).starting = 0) (hm : raw .up (ss n)) : (ss n).wg ≠ 0 := by
  intro h0
  rcases (h.started n).1 hm.2 with e | e
  · rw [h.unstarted hp (.inr h0)] at e; cases e
  · exact hm.1 e

/-- The wait for `km.wg`, in WaitForTermination and Restart. -/
theorem Managed.wait {i : Nat} (h : Managed sv clock i ss es) (hf : ¬ Feeds ss es) {n : Nat} {μ : Mode} {r : Bool} (hp : (ss n).api i = .wait .enter r) (hm : raw μ (ss n))
    (hu : μ ≠ .up) : ∃ m, n < m ∧ (∀ j, n ≤ j → j < m → ∃ k, (ss j).api i = .wait k r) ∧ (ss m).api i = .stop .swap (if r then .restartWait else .wait) ∧
      raw (if (ss n).runs = [] then .new else .down) (ss m) := by
  have fin : ∀ m, n < m → (∀ j, n ≤ j → j < m → ∃ k, (ss j).api i = .wait k r) → (ss m).api i = .stop .swap (if r then .restartWait else .wait) →
      raw (if (ss n).runs = [] then .new else .down) (ss m) := by
    intro m h1 h2 h3
    have hmm := h.raw_stays (Nat.le_of_lt h1) (fun j a b => by obtain ⟨k, hk⟩ := h2 j a b; rw [hk]; rfl) hm
    split
    · next h4 =>
      exact h.raw_stays (μ := .new) (Nat.le_of_lt h1) (fun j a b => by obtain ⟨k, hk⟩ := h2 j a b; rw [hk]; rfl) h4
    · next h4 =>
      have hne : (ss m).runs ≠ [] ∧ (ss m).stopped = true := by
        cases μ with
        | new => exact absurd hm h4
        | up => exact absurd rfl hu
        | stopping => exact hmm
        | down => exact ⟨hmm.1, hmm.2.1⟩
      refine ⟨hne.1, hne.2, ?_⟩
      obtain ⟨m, rfl⟩ : ∃ x, m = x + 1 := ⟨m - 1, by omega⟩
      obtain ⟨k, hk⟩ := h2 m (by omega) (by omega)
      refine h.wg_stays (fun _ e => by rw [hk] at e; cases e) ?_
      rcases step_api (h.step m) i with ⟨_, hn⟩ | ⟨_, hn⟩
      · rw [hk, h3] at hn
        generalize hq : ApiPc.stop .swap (if r then .restartWait else .wait) = pc' at hn
        cases hn with
        | waitZero _ _ _ h0 => exact h0
        | waitSleep => cases hq
        | waitReused => cases hq
      · rw [hk, h3] at hn
        exfalso
        generalize hq : ApiPc.stop .swap (if r then .restartWait else .wait) = pc' at hn
        cases hn with
        | not => cases hq
        | wg => cases k <;> cases hq
        | init => cases k <;> cases hq
  have ex : ∃ m, n < m ∧ (ss m).api i = .stop .swap (if r then .restartWait else .wait) ∧ ∀ j, n ≤ j → j < m → ∃ k, (ss j).api i = .wait k r := by
    cases μ with
    | up => exact absurd rfl hu
    | stopping => exact h.orderly.wait_next hf hp hm.2
    | down => exact h.orderly.wait_next hf hp hm.2.1
    | new =>
      obtain ⟨m, m1, m2, _, m4⟩ := h.api_acts (n := n) (i := i) (by rw [hp]; rfl) (by rw [hp]; rfl) (by rw [hp]; rfl)
      have h1 := h.raw_stays (μ := .new) m1 (fun j a b => by rw [m2 j a (Nat.le_of_lt b), hp]; rfl) hm
      have h2 : (ss m).wg = 0 := by
        have hi := (h.inv m).inv
        rw [hi.wg, starting_zero h (fun pc hp => by cases pc <;> first | rfl | cases hp) (by rw [m2 m m1 (Nat.le_refl _), hp]; rfl), show (ss m).runs = [] from h1]
        cases hc : (ss m).conns with
        | nil => rfl
        | cons k ks =>
          have := hi.gen 0 k (by rw [hc]; rfl)
          rw [show (ss m).runs = [] from h1] at this; cases this
      refine ⟨m + 1, by omega, ?_, fun j a b => ⟨_, (m2 j a (by omega)).trans hp⟩⟩
      rw [hp] at m4
      generalize (ss (m + 1)).api i = pc' at m4
      cases m4 with
      | waitZero => rfl
      | waitSleep _ hx => exact absurd h2 hx
  obtain ⟨m, m1, m2, m3⟩ := ex
  exact ⟨m, m1, m3, m2, fin m m1 m3 m2⟩

theorem RunIn.snoc {P : Sys → Prop} {s s1 s2 : Sys} {tr : List SEv} {e : SEv} (h : RunIn P s tr s1) (hs : Sys.Step s1 e s2) (hp : P s2) : RunIn P s (tr ++ [e]) s2 := by
  induction h with
  | nil h => exact .cons h hs (.nil hp)
  | cons h1 h2 _ ih => exact .cons h1 h2 (ih hs)

theorem _root_.KM.Orderly.runIn (h : Orderly sv clock ss es) (n : Nat) : ∃ tr, RunIn Apart (Sys.new sv clock) tr (ss n) := by
  induction n with
  | zero => exact ⟨[], by rw [← h.first]; exact .nil (h.apart 0)⟩
  | succ n ih =>
    obtain ⟨tr, ih⟩ := ih
    exact ⟨_, ih.snoc (h.step n) (h.apart (n + 1))⟩

/-- What comes of the call that goroutine `i` makes at step `n`. -/
def Comes (ss : Nat → Sys) (i n : Nat) : Outcome → Prop
  | .returns μ => ∃ m, ReturnsAt ss i n m ∧ μ.Holds (ss m)
  | .panics why μ => ∃ m, PanicsAt ss i n m why ∧ μ.Holds (ss m)
  | .never => ∀ m, n < m → busy ((ss m).api i)

/-- The first case of the table. -/
theorem C117_new {i : Nat} (h : Managed sv clock i ss es) : Mode.new.Holds (ss 0) := by
  rw [h.first]; exact ⟨rfl, rfl⟩

/-- **C117**, the calls: the mock does what the table says.
Missing for the full statement: a Fetch whose limits have no room for the records of its partitions, which keeps WaitForTermination and Restart waiting (`C68_false`). -/
theorem C117_call_partial {i : Nat} (h : Managed sv clock i ss es) (hr : Roomy ss es) {n : Nat} {c : Call} {μ : Mode} (hc : CallsAt ss es i c n) (hμ : μ.Holds (ss n))
    (hl : c ∈ [.start, .requestStop, .waitForTermination, .restart, .finishRequests]) : ∃ o, Does μ c o ∧ Comes ss i n o := by
  have hf := h.toEndless.not_feeds hr
  have hm := (h.holds (by rw [hc.1]; rfl) μ).1 hμ
  have he := hc.entry h.orderly
  have hm := h.raw_step (by rw [hc.1]; rfl) hm
  -- the call has returned, or panicked
  have returns : ∀ {μ' : Mode} {m : Nat}, n < m → (∀ j, n + 1 ≤ j → j < m → ((ss j).api i).life = true ∨ (ss j).api i = .finish) → (ss m).api i = .idle → raw μ' (ss m) →
      Comes ss i n (.returns μ') := fun {μ' m} h1 h2 h3 h4 => ⟨m, ⟨h1, h3, fun j a b => (h2 j a b).elim life_busy fun e => by rw [e]; exact ⟨nofun, nofun⟩⟩,
        (h.holds (by rw [h3]; rfl) μ').2 h4⟩
  have panics : ∀ {μ' : Mode} {m : Nat} {why : Panic}, n < m → (∀ j, n + 1 ≤ j → j < m → ((ss j).api i).life = true ∨ (ss j).api i = .finish) →
      (ss m).api i = .panicked why → raw μ' (ss m) → Comes ss i n (.panics why μ') :=
    fun {μ' m why} h1 h2 h3 h4 => ⟨m, ⟨h1, h3, fun j a b => (h2 j a b).elim life_busy fun e => by rw [e]; exact ⟨nofun, nofun⟩⟩, (h.holds (by rw [h3]; rfl) μ').2 h4⟩
  cases c with
  | start =>
    obtain ⟨m, a1, a2, a3⟩ := h.start (r := false) he hm
    have lf : ∀ j, n + 1 ≤ j → j < m → ((ss j).api i).life = true ∨ (ss j).api i = .finish := fun j a b => by obtain ⟨k, hk⟩ := a2 j a b; rw [hk]; exact .inl rfl
    rcases a3 with ⟨_, a3, a4, a5⟩ | ⟨a3, a4, a5⟩
    · exact ⟨_, .startTwice a5, panics (by omega) lf a3 a4⟩
    · exact ⟨_, .start a5, returns (by omega) lf a3 a4⟩
  | requestStop =>
    obtain ⟨m, a1, a2, a3, a4⟩ := h.stop (b := .test) he hm
    have := returns (by omega) (fun j a b => by obtain ⟨k, hk⟩ := a2 j a b; rw [hk]; exact .inl rfl) a3 a4
    cases μ with
    | up => exact ⟨_, .stop, this⟩
    | new => exact ⟨_, .stopAgain nofun, this⟩
    | stopping => exact ⟨_, .stopAgain nofun, this⟩
    | down => exact ⟨_, .stopAgain nofun, this⟩
  | waitForTermination =>
    by_cases hu : μ = .up
    · subst hu
      refine ⟨_, .waitUp, fun m hnm => ?_⟩
      have key : (∃ k, (ss m).api i = .wait k false) ∧ raw .up (ss m) := by
        induction hnm with
        | refl => exact ⟨⟨_, he⟩, hm⟩
        | @step m _ ih =>
          obtain ⟨⟨k, hk⟩, hu⟩ := ih
          refine ⟨?_, h.raw_step (by rw [hk]; rfl) hu⟩
          have h0 := h.up_wg (by rw [hk]; rfl) hu
          have hx := (h.inv (m + 1)).apart.reused i
          rcases step_api (h.step m) i with ⟨_, hn⟩ | ⟨_, hn⟩
          · rw [hk] at hn
            generalize (ss (m + 1)).api i = pc' at hn hx
            cases hn with
            | waitZero _ _ _ hz => exact absurd hz h0
            | waitSleep => exact ⟨_, rfl⟩
            | waitReused => exact absurd rfl hx
          · rw [hk] at hn
            generalize (ss (m + 1)).api i = pc' at hn
            cases hn with
            | not => exact ⟨_, rfl⟩
            | wg => cases k <;> exact ⟨_, rfl⟩
            | init => cases k <;> exact ⟨_, rfl⟩
      obtain ⟨⟨k, hk⟩, _⟩ := key
      rw [hk]; exact life_busy rfl
    · obtain ⟨m, a1, a2, a3, a4⟩ := h.wait hf (r := false) he hm hu
      obtain ⟨m', b1, b2, b3, b4⟩ := h.stop (b := .wait) a3 a4
      have := returns (m := m') (by omega) (fun j a b => by
        rcases Nat.lt_or_ge j m with hj | hj
        · obtain ⟨k, hk⟩ := a2 j a hj; rw [hk]; exact .inl rfl
        · obtain ⟨k, hk⟩ := b2 j hj b; rw [hk]; exact .inl rfl) b3 b4
      split at this
      · next h0 =>
        have : μ = .new := Classical.byContradiction fun e => raw_ne hm e h0
        subst this
        exact ⟨_, .waitNew, ‹_›⟩
      · next h0 =>
        refine ⟨_, .wait ?_, this⟩
        cases μ with
        | new => exact absurd hm h0
        | up => exact absurd rfl hu
        | stopping => exact .inl rfl
        | down => exact .inr rfl
  | restart =>
    obtain ⟨a, a1, a2, a3, a4⟩ := h.stop (b := .restart) he hm
    obtain ⟨b, b1, b2, b3, b4⟩ := h.wait hf (r := true) a3 a4 (by cases μ <;> nofun)
    obtain ⟨c, c1, c2, c3, c4⟩ := h.stop (b := .restartWait) b3 b4
    obtain ⟨d, d1, d2, d3⟩ := h.start (r := true) c3 c4
    rcases d3 with ⟨d3, _⟩ | ⟨d3, d4, _⟩
    · cases d3
    obtain ⟨e, e1, e2, _, _, _, e6⟩ := h.orderly.restart_next d3
    refine ⟨_, .restart, returns (m := e) (by omega) ?_ e2 (h.raw_stays (Nat.le_of_lt e1) (fun j x y => by obtain ⟨k, hk⟩ := e6 j x y; rw [hk]; rfl) d4)⟩
    intro j j1 j2
    left
    rcases Nat.lt_or_ge j a with h1 | h1
    · obtain ⟨_, hj⟩ := a2 j j1 h1; rw [hj]; rfl
    rcases Nat.lt_or_ge j b with h2 | h2
    · obtain ⟨_, hj⟩ := b2 j h1 h2; rw [hj]; rfl
    rcases Nat.lt_or_ge j c with h3 | h3
    · obtain ⟨_, hj⟩ := c2 j h2 h3; rw [hj]; rfl
    rcases Nat.lt_or_ge j d with h4 | h4
    · obtain ⟨_, hj⟩ := d2 j h3 h4; rw [hj]; rfl
    · obtain ⟨_, hj⟩ := e6 j h4 j2; rw [hj]; rfl
  | finishRequests =>
    have he : (ss (n + 1)).api i = .finish := he
    have stays : ∀ m, n + 1 ≤ m → (∀ j, n + 1 ≤ j → j < m → (es j).of ≠ some (.api i)) → (ss m).api i = .finish := by
      intro m hm
      induction hm with
      | refl => intro _; exact he
      | @step m hm ih => intro hno; exact step_keeps_finish (h.step m) (hno m hm (Nat.lt_succ_self m)) (ih fun j a b => hno j a (Nat.lt_succ_of_lt b))
    obtain ⟨m, m1, m2, m3⟩ := h.first_act (.api i) (n + 1) fun hno m hm => ⟨m, Nat.le_refl _, by
      show ((ss m).api i).ready (ss m)
      rw [stays m hm fun j a _ => hno j a]; trivial⟩
    have hfin : ∀ j, n + 1 ≤ j → j < m + 1 → ((ss j).api i).life = true ∨ (ss j).api i = .finish :=
      fun j a b => .inr (stays j a fun j' a' b' => m3 j' a' (by omega))
    have hpm := stays m m1 m3
    have hmm := h.raw_stays m1 (fun j a b => by rw [stays j a fun j' a' b' => m3 j' a' (by omega)]; rfl) hm
    have hm1 := h.raw_step (by rw [hpm]; rfl) hmm
    rcases step_api (h.step m) i with ⟨_, hn⟩ | ⟨hx, _⟩
    · rw [hpm] at hn
      generalize hq : (ss (m + 1)).api i = pc' at hn
      have hder : ∀ j, derived ((ss m).api j) = false := fun j => by
        by_cases e : j = i
        · rw [e, hpm]; rfl
        · have := h.others m j e
          revert this; generalize (ss m).api j = pc; intro this
          cases pc <;> first | rfl | cases this
      cases hn with
      | finish hz =>
        refine ⟨_, .finish ?_, returns (by omega) hfin hq hm1⟩
        rintro rfl
        exact hz ((h.started m).2 hmm hder)
      | finishNil hz =>
        have : μ = .new := by
          refine Classical.byContradiction fun e => ?_
          obtain ⟨tr, hrun⟩ := h.orderly.runIn m
          rcases C69_partial hrun (h.step m) (h.orderly.apart (m + 1)) hq (by rw [hpm]; nofun) with ⟨hx, _⟩ | ⟨_, _, hx⟩
          · cases hx
          · exact raw_ne hmm e hx
        subst this
        exact ⟨_, .finishNew, panics (by omega) hfin hq hm1⟩
    · exact absurd m2 hx
  | _ => simp at hl

/-- **C117**, between the calls: whatever clients, posters and the goroutines of the mock do, the mode stays until the manager calls one of the functions again. -/
theorem C117_between {i : Nat} (h : Managed sv clock i ss es) {n m : Nat} (hnm : n ≤ m) (hq : ∀ j, n ≤ j → j ≤ m → ((ss j).api i).life = false) {μ : Mode} (hμ : μ.Holds (ss n)) :
    μ.Holds (ss m) := by
  refine (h.holds (hq m hnm (Nat.le_refl _)) μ).2 (h.raw_stays hnm (fun j a b => ?_) ((h.holds (hq n (Nat.le_refl _) hnm) μ).1 hμ))
  have := hq j a (Nat.le_of_lt b)
  revert this; generalize (ss j).api i = pc; intro this
  cases pc <;> first | rfl | cases this

/-- **C117**, always: whenever the manager is in none of the functions, the mock is in one of the modes. -/
theorem C117_always {i : Nat} (h : Managed sv clock i ss es) {n : Nat} (hq : ((ss n).api i).life = false) : ∃ μ : Mode, μ.Holds (ss n) := by
  by_cases h0 : (ss n).runs = []
  · exact ⟨.new, (h.holds hq _).2 h0⟩
  · cases hs : (ss n).stopped with
    | false => exact ⟨.up, (h.holds hq _).2 ⟨h0, hs⟩⟩
    | true => exact ⟨.stopping, (h.holds hq _).2 ⟨h0, hs⟩⟩

/-- **C117**, the modes exclude each other, except that a mock that is down is also described by `stopping`. -/
theorem C117_one {s : Sys} {μ μ' : Mode} (h : μ.Holds s) (h' : μ'.Holds s) : μ = μ' ∨ (μ = .stopping ∧ μ' = .down) ∨ (μ = .down ∧ μ' = .stopping) := by
  have up : ∀ {s : Sys}, Mode.up.Holds s → s.runs ≠ [] := fun h e => by
    obtain ⟨_, g, hg⟩ := h
    obtain ⟨r, hr, _⟩ := hg.pc
    rw [e] at hr; cases hr
  cases μ <;> cases μ' <;> first
    | exact .inl rfl
    | exact .inr (.inl ⟨rfl, rfl⟩)
    | exact .inr (.inr ⟨rfl, rfl⟩)
    | exact absurd h.1 (up h')
    | exact absurd h'.1 (up h)
    | exact absurd h.1 h'.2.1
    | exact absurd h'.1 h.2.1
    | (have := h.1.symm.trans h'.1; cases this)

/-- **C117**, up: a mock that is up and is left alone opens its listener and then accepts connections for ever. -/
theorem C117_up {i : Nat} (h : Managed sv clock i ss es) {n : Nat} (hμ : Mode.up.Holds (ss n)) (hq : ∀ j, n ≤ j → ((ss j).api i).life = false) :
    ∃ m g, n ≤ m ∧ ∀ k, m ≤ k → Up g (ss k) ∧ Listening g (ss k) := by
  obtain ⟨_, g, hg⟩ := hμ
  have hno : ∀ j, n ≤ j → NoStop (ss j) := fun j hj a k b e => by
    have : a = i := h.only (n := j) (by rw [e]; rfl)
    subst this
    have := hq j hj
    rw [e] at this; cases this
  have rising : ∀ j, n ≤ j → Rising g (ss j) := by
    intro j hj
    induction hj with
    | refl => exact hg
    | @step j hj ih => exact ih.step (h.step j) (hno j hj)
  obtain ⟨r, hr, _⟩ := hg.pc
  obtain ⟨m, r', m1, m2, m3⟩ := h.run_inits hr
  obtain ⟨r2, h1, h2⟩ := (rising m m1).pc
  rw [m2] at h1; cases h1
  have hup : Up g (ss m) := ⟨⟨r', m2, h2.resolve_left (by rw [m3]; nofun)⟩, (rising m m1).open_⟩
  have all : ∀ k, m ≤ k → Up g (ss k) := by
    intro k hk
    induction hk with
    | refl => exact hup
    | @step k hk ih => exact ih.step (h.step k) (hno k (Nat.le_trans m1 hk))
  exact ⟨m, g, m1, fun k hk => ⟨all k hk, (all k hk).listening⟩⟩

/-- **C117**, stopping: a mock that was told to stop and is left alone is down after some time; nobody has to wait for it.
Missing for the full statement: a Fetch whose limits have no room for the records of its partitions (`C68_false`). -/
theorem C117_stopping_partial {i : Nat} (h : Managed sv clock i ss es) (hr : Roomy ss es) {n : Nat} (hμ : Mode.stopping.Holds (ss n))
    (hq : ∀ j, n ≤ j → ((ss j).api i).life = false) : ∃ m, n ≤ m ∧ ∀ k, m ≤ k → Mode.down.Holds (ss k) ∧ ∀ c ∈ (ss k).conns, c.pc = .ended := by
  have hf := h.toEndless.not_feeds hr
  have ho := h.orderly
  have quiet : ∀ j, n ≤ j → ∀ a, ((ss j).api a).life = false := fun j hj a => if e : a = i then by rw [e]; exact hq j hj else h.others j a e
  have hm : ∀ m, n ≤ m → raw .stopping (ss m) := fun m hm => (h.holds (hq m hm) _).1 (C117_between h hm (fun j a _ => hq j a) hμ)
  have len : ∀ {n' m : Nat}, n ≤ n' → n' ≤ m → (ss m).runs.length = (ss n').runs.length := by
    intro n' m hn hm
    induction hm with
    | refl => rfl
    | @step m hm ih => rw [h.length_same (fun r e => by have := hq m (Nat.le_trans hn hm); rw [e] at this; cases this), ih]
  have down := fun m (hnm : n ≤ m) => (h.inv m).apart.stop (hm m hnm).2 fun j => by
    have := quiet m hnm j
    revert this; generalize (ss m).api j = pc; intro this
    cases pc <;> first | rfl | cases this
  -- all accept loops end
  have all : ∀ L, L ≤ (ss n).runs.length → ∃ M, n ≤ M ∧ ∀ g, g < L → ∃ r, (ss M).runs[g]? = some r ∧ r.pc = .ended := by
    intro L
    induction L with
    | zero => intro _; exact ⟨n, Nat.le_refl _, fun c h => absurd h (Nat.not_lt_zero _)⟩
    | succ L ih =>
      intro hL
      obtain ⟨M, h1, h2⟩ := ih (by omega)
      obtain ⟨r, hr⟩ : ∃ r, (ss M).runs[L]? = some r := ⟨_, List.getElem?_eq_getElem (by rw [len (Nat.le_refl _) h1]; omega)⟩
      have : ∃ m r', M ≤ m ∧ (ss m).runs[L]? = some r' ∧ r'.pc = .ended := by
        cases hrun : r.pc.running with
        | false => exact h.run_leaves hr hrun
        | true =>
          obtain ⟨c1, c2⟩ := down M h1 L r hr hrun
          exact h.run_ends hf hr c1 c2
      obtain ⟨M', r', h3, h4, h5⟩ := this
      refine ⟨M', by omega, fun g hg => ?_⟩
      rcases Nat.lt_or_ge g L with hc' | hc'
      · obtain ⟨k', a, b⟩ := h2 g hc'
        exact ⟨k', h.run_ended h3 a b, b⟩
      · have : g = L := by omega
        subst this
        exact ⟨r', h4, h5⟩
  obtain ⟨M, hM, hM2⟩ := all _ (Nat.le_refl _)
  have ended : ∀ (m : Nat), M ≤ m → ∀ (g : Nat) (r : RunG), (ss m).runs[g]? = some r → r.pc = .ended := by
    intro m hm g r hg
    have hlt := (List.getElem?_eq_some_iff.1 hg).1
    rw [len (Nat.le_refl _) (show n ≤ m by omega)] at hlt
    obtain ⟨r', a, b⟩ := hM2 g hlt
    have := h.run_ended hm a b
    rw [hg] at this; cases this; exact b
  -- no connections any more
  have clen : ∀ m, M ≤ m → (ss m).conns.length = (ss M).conns.length := by
    intro m hm
    induction hm with
    | refl => rfl
    | @step m hm ih =>
      rw [← ih]
      cases (h.step m).shape with
      | quiet e => rw [e]
      | reset _ _ _ e => rw [e]
      | loop _ _ _ _ _ _ _ e => rw [e]
      | register g' r' hg' hp' _ _ _ =>
        have := ended m hm g' r' hg'
        rw [hp'] at this; cases this
      | conn _ _ _ _ _ _ e => rw [e, List.length_set]
      | delete _ _ _ _ _ _ e => rw [e, List.length_set]
  have call : ∀ L, L ≤ (ss M).conns.length → ∃ M', M ≤ M' ∧ ∀ c, c < L → ∃ k, (ss M').conns[c]? = some k ∧ k.pc = .ended := by
    intro L
    induction L with
    | zero => intro _; exact ⟨M, Nat.le_refl _, fun c h => absurd h (Nat.not_lt_zero _)⟩
    | succ L ih =>
      intro hL
      obtain ⟨M', h1, h2⟩ := ih (by omega)
      obtain ⟨k, hk⟩ : ∃ k, (ss M').conns[L]? = some k := ⟨_, List.getElem?_eq_getElem (by rw [clen M' h1]; omega)⟩
      obtain ⟨M2, h3, h4⟩ := h.conn_ends hf hk fun p hp' => by
        obtain ⟨r, a1, a2⟩ := (h.inv M').attended L k hk (by rw [hp']; rfl)
        have := ended M' h1 _ r a1
        rw [this] at a2; cases a2
      refine ⟨M2, by omega, fun c hc => ?_⟩
      rcases Nat.lt_or_ge c L with hc' | hc'
      · obtain ⟨k', a, b⟩ := h2 c hc'
        exact ⟨k', h.conn_ended h3 a b, b⟩
      · have : c = L := by omega
        subst this
        exact ⟨_, h4, rfl⟩
  obtain ⟨E, hE, hE2⟩ := call _ (Nat.le_refl _)
  refine ⟨E, by omega, fun k hk => ?_⟩
  have hconns : ∀ c ∈ (ss k).conns, c.pc = .ended := by
    intro c hc
    obtain ⟨x, hx⟩ := List.getElem?_of_mem hc
    have hlt := (List.getElem?_eq_some_iff.1 hx).1
    rw [clen k (by omega)] at hlt
    obtain ⟨k', a, b⟩ := hE2 x hlt
    have := h.conn_ended hk a b
    rw [hx] at this; cases this; exact b
  have hst := (h.holds (hq k (by omega)) .stopping).2 (hm k (by omega))
  refine ⟨⟨hst.1, hst.2.1, hst.2.2.1, fun r hr => ?_, fun c hc => .inr (hconns c hc)⟩, hconns⟩
  obtain ⟨g, hg⟩ := List.getElem?_of_mem hr
  exact ended k (by omega) g r hg

/-! ### Cases -/

/-- A caller that is idle can only call a method. -/
theorem idle_step {s s' : Sys} {e : SEv} {i : Nat} (h : Sys.Step s e s') (he : e.of = some (.api i)) (hp : s.api i = .idle) :
    ∃ c, e = .life (.api i c) ∧ s'.api i = c.entry := by
  have hs := h
  cases h with
  | @life _ ch hn =>
    cases ch <;> cases he
    exact ⟨_, rfl, called_at hs hp⟩
  | conn => cases he
  | unroll => cases he
  | call hx => cases he; rw [hp] at hx; cases hx
  | tick => cases he

/-- How a caller came to wait in WaitForTermination. -/
theorem wait_called {i : Nat} (h : Managed sv clock i ss es) {m : Nat} {k : WaitPc} (hp : (ss m).api i = .wait k false) :
    ∃ n, n < m ∧ CallsAt ss es i .waitForTermination n ∧ ∀ j, n < j → j ≤ m → ∃ k, (ss j).api i = .wait k false := by
  induction m generalizing k with
  | zero => rw [h.first] at hp; cases hp
  | succ m ih =>
    have back : (∃ k, (ss m).api i = .wait k false) → ∃ n, n < m + 1 ∧ CallsAt ss es i .waitForTermination n ∧ ∀ j, n < j → j ≤ m + 1 → ∃ k, (ss j).api i = .wait k false := by
      rintro ⟨k', hk⟩
      obtain ⟨n, n1, n2, n3⟩ := ih hk
      refine ⟨n, by omega, n2, fun j a b => ?_⟩
      rcases Nat.lt_or_ge m j with hj | hj
      · have : j = m + 1 := by omega
        subst this; exact ⟨k, hp⟩
      · exact n3 j a hj
    rcases step_api (h.step m) i with ⟨he, hn⟩ | ⟨_, hn⟩
    · rw [hp] at hn
      generalize hq : (ss m).api i = pc at hn back
      generalize hq' : ApiPc.wait k false = pc' at hn
      cases hn <;> first | (cases hq'; done) | (cases hq'; exact back ⟨_, rfl⟩) | (cases ‹StopBy› <;> cases hq') | skip
      obtain ⟨c', hc, hx⟩ := idle_step (h.step m) he hq
      rw [hp] at hx
      cases c' <;> cases hx
      exact ⟨m, by omega, ⟨hq, hc⟩, fun j a b => by
        obtain rfl : j = m + 1 := by omega
        exact ⟨_, hp⟩⟩
    · refine back ?_
      rw [hp] at hn
      generalize (ss m).api i = pc at hn
      generalize hq' : ApiPc.wait k false = pc' at hn
      cases hn with
      | not => exact ⟨_, hq'.symm⟩
      | wg =>
        unfold ApiPc.wakeWg at hq'
        split at hq'
        · cases hq'; exact ⟨_, rfl⟩
        · exact ⟨_, hq'.symm⟩
      | init =>
        unfold ApiPc.wakeInit at hq'
        split at hq'
        · cases hq'
        · cases hq'
        · exact ⟨_, hq'.symm⟩

/-- C117 is false without the restriction on Fetch: the mock is told to stop, and WaitForTermination does not do what the table says. -/
theorem C117_false : ∃ (ss : Nat → Sys) (es : Nat → SEv) (n : Nat) (μ : Mode), Managed ⟨9092, []⟩ 0 0 ss es ∧ CallsAt ss es 0 .waitForTermination n ∧ μ.Holds (ss n) ∧
    ∀ o, Does μ .waitForTermination o → ¬ Comes ss 0 n o := by
  obtain ⟨ss, es, h1, h2, N, h3⟩ := C68_false
  have h : Managed ⟨9092, []⟩ 0 0 ss es :=
    { toEndless := h1.toEndless, others := fun m j hj => by obtain ⟨j, rfl⟩ : ∃ x, j = x + 1 := ⟨j - 1, by omega⟩; rw [h2]; rfl }
  obtain ⟨n, n1, n2, n3⟩ := wait_called h (h3 N (Nat.le_refl _)).2
  have waits : ∀ j, n < j → ∃ k, (ss j).api 0 = .wait k false := fun j hj => by
    rcases Nat.lt_or_ge j N with hx | hx
    · exact n3 j hj (Nat.le_of_lt hx)
    · exact ⟨_, (h3 j hx).2⟩
  have hst : (ss n).stopped = true := by
    have back : ∀ m, n ≤ m → (ss m).stopped = (ss n).stopped := by
      intro m hm
      induction hm with
      | refl => rfl
      | @step m hm ih =>
        rw [← ih]
        have : turning ((ss m).api 0) = false := by
          rcases Nat.lt_or_ge n m with hx | hx
          · obtain ⟨k, hk⟩ := waits m hx; rw [hk]; rfl
          · rw [Nat.le_antisymm hx hm, n2.1]; rfl
        exact h.stopped_same (fun _ e => by rw [e] at this; cases this) fun _ e => by rw [e] at this; cases this
    rw [← back N (Nat.le_of_lt n1)]; exact (h3 N (Nat.le_refl _)).1
  obtain ⟨μ, hμ⟩ := C117_always h (n := n) (by rw [n2.1]; rfl)
  refine ⟨ss, es, n, μ, h, n2, hμ, fun o ho hc => ?_⟩
  have no : ∀ m, ¬ ReturnsAt ss 0 n m := by
    rintro m ⟨a, b, _⟩
    obtain ⟨k, hk⟩ := waits m a
    rw [b] at hk; cases hk
  cases ho with
  | waitNew => obtain ⟨m, a, _⟩ := hc; exact no m a
  | waitUp => have := hμ.1; rw [hst] at this; cases this
  | wait => obtain ⟨m, a, _⟩ := hc; exact no m a

/-- Nothing goes on: the only caller is idle or waits, accept loops have ended or wait for connections, connections have ended. -/
def atRest (s : Sys) : Bool :=
  (match s.api 0 with | .idle | .wait .asleep _ => true | _ => false) &&
  ((List.range s.runs.length).all fun g => match s.runs[g]? with | some r => r.pc == .ended || (r.pc == .accept && !s.closes.contains g) | none => true) &&
  s.conns.all fun k => match k.pc with | .ended => true | _ => false

/-- No request is served. -/
def asksNothing : SEv → Bool
  | .conn _ (.reqBegin _) _ => false
  | _ => true

/-- A schedule, a call, and a schedule after which nothing goes on. -/
def rests (ps1 : List Pick) (c : Call) (ps2 : List Pick) : Bool :=
  match Sys.play ps1 (Sys.new ⟨9092, []⟩ 0) with
  | none => false
  | some (tr1, s1) =>
    tr1.all solo && tr1.all asksNothing && (match s1.api 0 with | .idle => true | _ => false) &&
    match Sys.play (.api 0 c :: ps2) s1 with
    | none => false
    | some (tr2, s3) => tr2.all solo && tr2.all asksNothing && atRest s3

/-- The run goes on for ever; time passes, and nothing else happens. -/
theorem rests_run {ps1 ps2 : List Pick} {c : Call} (h : rests ps1 c ps2 = true) :
    ∃ ss es n, Managed ⟨9092, []⟩ 0 0 ss es ∧ Roomy ss es ∧ CallsAt ss es 0 c n ∧ ss n = after ps1 := by
  unfold rests at h
  split at h
  · cases h
  next tr1 s1 hp1 =>
  simp only [Bool.and_eq_true] at h
  obtain ⟨⟨⟨h1, h2⟩, h3⟩, h4⟩ := h
  split at h4
  · cases h4
  next tr2 s3 hp2 =>
  simp only [Bool.and_eq_true] at h4
  obtain ⟨⟨h4, h5⟩, h6⟩ := h4
  have i1 : s1.api 0 = .idle := by
    revert h3; generalize s1.api 0 = pc; intro h3
    cases pc <;> first | rfl | cases h3
  obtain ⟨tr2', rfl⟩ : ∃ t, tr2 = .life (.api 0 c) :: t := by
    simp only [Sys.play, Sys.pick, i1, Sys.apiStep] at hp2
    split at hp2
    · cases hp2
    · cases hp2; exact ⟨_, rfl⟩
  let ts : Nat → Sys := fun n => Nat.rec s3 (fun _ (s : Sys) => { s with clock := s.clock + (1 : Nat) }) n
  have ht : ∀ n, (ts n).api = s3.api ∧ (ts n).runs = s3.runs ∧ (ts n).conns = s3.conns ∧ (ts n).closes = s3.closes := by
    intro n
    induction n with
    | zero => exact ⟨rfl, rfl, rfl, rfl⟩
    | succ n ih => exact ih
  obtain ⟨ss, es, t1, t2, t3, t4, t5, t6, t7⟩ := prepend_two (Sys.play_sound hp1) (Sys.play_sound hp2) ts (fun _ => .tick 1) rfl fun n => .tick 1
  have hsolo : ∀ n, solo (es n) = true := by
    intro n
    rcases t5 n with h | ⟨m, h⟩
    · rcases List.mem_append.1 h with h | h
      · exact List.all_eq_true.1 h1 _ h
      · exact List.all_eq_true.1 h4 _ h
    · rw [h]; rfl
  have hask : ∀ n, asksNothing (es n) = true := by
    intro n
    rcases t5 n with h | ⟨m, h⟩
    · rcases List.mem_append.1 h with h | h
      · exact List.all_eq_true.1 h2 _ h
      · exact List.all_eq_true.1 h5 _ h
    · rw [h]; rfl
  refine ⟨ss, es, tr1.length, { toEndless := ⟨t1, t2, ?_⟩, others := fun m j hj => ?_ }, ?_, ⟨by rw [t7]; exact i1, t6 tr1.length _ (by simp)⟩, ?_⟩
  · intro t _ hr n
    exfalso
    obtain ⟨m, m1, m2⟩ := hr (tr1 ++ .life (.api 0 c) :: tr2').length
    obtain ⟨m, rfl⟩ : ∃ x, m = (tr1 ++ .life (.api 0 c) :: tr2').length + x := ⟨m - (tr1 ++ .life (.api 0 c) :: tr2').length, by omega⟩
    obtain ⟨x1, x2, x3, x4⟩ := ht m
    unfold atRest at h6
    simp only [Bool.and_eq_true] at h6
    obtain ⟨⟨r1, r2⟩, r3⟩ := h6
    cases t with
    | api i =>
      cases i with
      | zero =>
        have m2 : ((ss _).api 0).ready (ss _) := m2
        rw [t3, x1] at m2
        revert m2 r1; generalize s3.api 0 = pc; intro r1 m2
        cases pc with
        | idle => exact m2
        | wait k r => cases k <;> first | exact m2 | cases r1
        | _ => cases r1
      | succ i =>
        have m2 : ((ss _).api (i + 1)).ready (ss _) := m2
        rw [solo_idle t1 t2 hsolo] at m2; exact m2
    | run g =>
      obtain ⟨r, a, b⟩ := m2
      rw [t3, x2] at a
      have := List.all_eq_true.1 r2 g (List.mem_range.2 (List.getElem?_eq_some_iff.1 a).1)
      rw [a] at this
      simp only [Bool.or_eq_true, Bool.and_eq_true, beq_iff_eq] at this
      rcases this with e | ⟨e, e'⟩
      · rw [e] at b; exact b
      · rw [e] at b
        have b : g ∈ (ss _).closes := b
        rw [t3, x4] at b
        rw [List.contains_iff_mem.2 b] at e'; cases e'
    | conn k =>
      obtain ⟨r, a, b⟩ := m2
      rw [t3, x3] at a
      have := List.all_eq_true.1 r3 r (List.mem_of_getElem? a)
      revert this b; generalize r.pc = pc; intro b this
      cases pc <;> first | exact b | cases this
  · obtain ⟨j, rfl⟩ : ∃ x, j = x + 1 := ⟨j - 1, by omega⟩
    rw [solo_idle t1 t2 hsolo]; rfl
  · rintro k j m q ⟨b, _, hb, _⟩ _
    have := hask b
    rw [hb] at this; cases this
  · rw [t7]
    unfold after
    rw [hp1]; rfl

/-- The mock is started and a client connects; then RequestStop is called. -/
def managedUp : List Pick := starts 0 ++ opens 0 ++ accepts 0

/-- What a stop takes, with one client. -/
def managedEnd : List Pick := [.run 0] ++ windsUp 0 ++ closesUp 0 ++ List.replicate 3 (.run 0)

theorem managedUp_holds : Mode.up.Holds (after managedUp) := ⟨rfl, 0, ⟨⟨⟨.accept, 1⟩, rfl, .inr rfl⟩, nofun⟩⟩

/-- RequestStop of a mock that is up. -/
example : ∃ ss es n, Managed ⟨9092, []⟩ 0 0 ss es ∧ Roomy ss es ∧ CallsAt ss es 0 .requestStop n ∧ Mode.up.Holds (ss n) := by
  obtain ⟨ss, es, n, h1, h2, h3, h4⟩ := rests_run (ps1 := managedUp) (c := .requestStop) (ps2 := caller 0 .requestStop 7 ++ managedEnd) (by decide +kernel)
  exact ⟨ss, es, n, h1, h2, h3, by rw [h4]; exact managedUp_holds⟩

/-- WaitForTermination of a mock that is up, with no client: it does not return. -/
example : ∃ ss es n, Managed ⟨9092, []⟩ 0 0 ss es ∧ Roomy ss es ∧ CallsAt ss es 0 .waitForTermination n ∧ Mode.up.Holds (ss n) := by
  obtain ⟨ss, es, n, h1, h2, h3, h4⟩ := rests_run (ps1 := starts 0 ++ opens 0) (c := .waitForTermination) (ps2 := caller 0 .waitForTermination 1) (by decide +kernel)
  exact ⟨ss, es, n, h1, h2, h3, by rw [h4]; exact ⟨rfl, 0, ⟨⟨⟨.accept, 0⟩, rfl, .inr rfl⟩, nofun⟩⟩⟩

/-- WaitForTermination of a mock that is stopping, with a client. -/
example : ∃ ss es n, Managed ⟨9092, []⟩ 0 0 ss es ∧ Roomy ss es ∧ CallsAt ss es 0 .waitForTermination n ∧ (ss n).conns ≠ [] ∧ Mode.stopping.Holds (ss n) := by
  obtain ⟨ss, es, n, h1, h2, h3, h4⟩ := rests_run (ps1 := managedUp ++ caller 0 .requestStop 8) (c := .waitForTermination)
    (ps2 := caller 0 .waitForTermination 1 ++ managedEnd ++ caller 0 .waitForTermination 2) (by decide +kernel)
  refine ⟨ss, es, n, h1, h2, h3, by rw [h4]; nofun, (h1.holds (by rw [h3.1]; rfl) _).2 ?_⟩
  rw [h4]; exact ⟨nofun, rfl⟩

/-- Start of a mock that is stopping: here it panics. -/
example : ∃ ss es n, Managed ⟨9092, []⟩ 0 0 ss es ∧ Roomy ss es ∧ CallsAt ss es 0 .start n ∧ Mode.stopping.Holds (ss n) := by
  obtain ⟨ss, es, n, h1, h2, h3, h4⟩ := rests_run (ps1 := managedUp ++ caller 0 .requestStop 8) (c := .start) (ps2 := caller 0 .start 4 ++ managedEnd) (by decide +kernel)
  refine ⟨ss, es, n, h1, h2, h3, (h1.holds (by rw [h3.1]; rfl) _).2 ?_⟩
  rw [h4]; exact ⟨nofun, rfl⟩

/-- Start of a mock that is down; it is up for ever after that. -/
example : ∃ ss es n, Managed ⟨9092, []⟩ 0 0 ss es ∧ Roomy ss es ∧ CallsAt ss es 0 .start n ∧ Mode.down.Holds (ss n) := by
  obtain ⟨ss, es, n, h1, h2, h3, h4⟩ := rests_run (ps1 := managedUp ++ caller 0 .requestStop 8 ++ managedEnd ++ caller 0 .waitForTermination 3) (c := .start)
    (ps2 := caller 0 .start 9 ++ opens 1) (by decide +kernel)
  refine ⟨ss, es, n, h1, h2, h3, (h1.holds (by rw [h3.1]; rfl) _).2 ?_⟩
  rw [h4]; exact ⟨nofun, rfl, rfl⟩

/-- Restart of a new mock. -/
example : ∃ ss es n, Managed ⟨9092, []⟩ 0 0 ss es ∧ Roomy ss es ∧ CallsAt ss es 0 .restart n ∧ Mode.new.Holds (ss n) := by
  obtain ⟨ss, es, n, h1, h2, h3, h4⟩ := rests_run (ps1 := []) (c := .restart) (ps2 := caller 0 .restart 13 ++ opens 0 ++ caller 0 .restart 1) (by decide +kernel)
  exact ⟨ss, es, n, h1, h2, h3, by rw [h4]; exact ⟨rfl, rfl⟩⟩

/-- FinishRequests of a new mock. -/
example : ∃ ss es n, Managed ⟨9092, []⟩ 0 0 ss es ∧ Roomy ss es ∧ CallsAt ss es 0 .finishRequests n ∧ Mode.new.Holds (ss n) := by
  obtain ⟨ss, es, n, h1, h2, h3, h4⟩ := rests_run (ps1 := []) (c := .finishRequests) (ps2 := caller 0 .finishRequests 2) (by decide +kernel)
  exact ⟨ss, es, n, h1, h2, h3, by rw [h4]; exact ⟨rfl, rfl⟩⟩

end KM.Props
