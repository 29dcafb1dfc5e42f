import Verif.Lifecycle
/-
Invariants of the mock's goroutines, for every schedule: mutual exclusion by `km.mu` and what the counters of the wait groups count.
-/
namespace KM

/-- The caller is between locking and unlocking `km.mu`. -/
def ApiPc.locked : ApiPc → Bool
  | .start .lock _ => false
  | .start _ _ => true
  | .stop .close _ => true
  | .stop .unlock _ => true
  | _ => false

/-- The accept loop is between locking and unlocking `km.mu`. -/
def RunPc.locked : RunPc → Bool
  | .register | .addActive | .addWg | .unlock => true
  | _ => false

/-- The connection is between locking and unlocking `km.mu`. -/
def ConnPc.locked : ConnPc → Bool
  | .oc .lock => false
  | .oc _ => true
  | _ => false

/-- Goroutine `h` is between locking and unlocking `km.mu`. -/
def Sys.holds (s : Sys) : Holder → Bool
  | .api i => (s.api i).locked
  | .run g => s.runs[g]?.any fun r => r.pc.locked
  | .conn c => s.conns[c]?.any fun k => k.pc.locked

/-- In `Start`, after line 49 has set `started` and before line 63 has started the accept loop. -/
def ApiPc.starting : ApiPc → Nat
  | .start .reset _ | .start .unstop _ | .start .derive _ | .start .addWg _ | .start .addInit _ | .start .spawn _ => 1
  | _ => 0

/-- In `Start`, after line 61 and before line 63. -/
def ApiPc.startingWg : ApiPc → Nat
  | .start .addInit _ | .start .spawn _ => 1
  | _ => 0

/-- In `Start`, after line 62 and before line 63. -/
def ApiPc.startingInit : ApiPc → Nat
  | .start .spawn _ => 1
  | _ => 0

/-- The accept loop has not yet cleared `started`. -/
def RunPc.running : RunPc → Bool
  | .wgDone | .ended => false
  | _ => true

/-- The accept loop has a unit of `km.wg`; while it registers a connection, that unit is counted for the connection. -/
def RunPc.inWg : RunPc → Bool
  | .ended | .addActive | .addWg => false
  | _ => true

/-- The accept loop has not yet called `km.initializing.Done()`. -/
def RunPc.initializing : RunPc → Bool
  | .listen | .setListener | .initDone => true
  | _ => false

/-- The connection has not yet called `km.active.Done()`. -/
def ConnPc.inActive : ConnPc → Bool
  | .oc .wg | .oc .unlock | .ended => false
  | _ => true

/-- The connection has not yet called `km.wg.Done()`. -/
def ConnPc.inWg : ConnPc → Bool
  | .oc .unlock | .ended => false
  | _ => true

/-- The connection has not yet entered the critical section of its close callback. -/
def ConnPc.early : ConnPc → Bool
  | .body _ | .oc .lock => true
  | _ => false

namespace Sys

/-- `f` of the caller that holds `km.mu`. -/
def ofHolder (s : Sys) (f : ApiPc → Nat) : Nat :=
  match s.mu with
  | some (.api i) => f (s.api i)
  | _ => 0

structure Inv (s : Sys) : Prop where
  mu : ∀ h, s.holds h = true ↔ s.mu = some h
  started : s.ofHolder ApiPc.starting + s.runs.countP (·.pc.running) = if s.started then 1 else 0
  wg : s.wg = s.ofHolder ApiPc.startingWg + s.runs.countP (·.pc.inWg) + s.conns.countP (·.pc.inWg)
  active : s.active + s.runs.countP (·.pc == .addActive) = s.conns.countP (·.pc.inActive)
  init : s.init = s.ofHolder ApiPc.startingInit + s.runs.countP (·.pc.initializing)
  /-- the accept loop that is registering a connection has just started its handler -/
  fresh : ∀ (g : Nat) (r : RunG), s.runs[g]? = some r → (r.pc = .addActive ∨ r.pc = .addWg) → ∃ (c : Nat) (k : ConnG), s.conns[c]? = some k ∧ k.pc.early = true ∧ k.gen = g
  /-- connections belong to accept loops -/
  gen : ∀ (c : Nat) (k : ConnG), s.conns[c]? = some k → k.gen < s.runs.length

theorem inv_new (sv : Server) (clock : Int) : (Sys.new sv clock).Inv where
  mu := by intro h; cases h <;> simp [Sys.new, holds, ApiPc.locked]
  started := rfl
  wg := rfl
  active := rfl
  init := rfl
  fresh := by intro g r h; simp [Sys.new] at h
  gen := by intro c k h; simp [Sys.new] at h

end Sys

theorem countP_set {α : Type _} (p : α → Bool) {l : List α} {i : Nat} {x : α} (h : l[i]? = some x) (y : α) :
    (l.set i y).countP p + (if p x then 1 else 0) = l.countP p + (if p y then 1 else 0) := by
  induction l generalizing i with
  | nil => cases h
  | cons a l ih =>
    cases i with
    | zero =>
      simp only [List.getElem?_cons_zero, Option.some.injEq] at h
      subst h
      simp only [List.set_cons_zero, List.countP_cons]
      omega
    | succ i =>
      simp only [List.getElem?_cons_succ] at h
      have := ih h
      simp only [List.set_cons_succ, List.countP_cons]
      omega

namespace Sys

theorem ofHolder_setApi (s : Sys) (f : ApiPc → Nat) (i : Nat) (pc : ApiPc) :
    (s.setApi i pc).ofHolder f = if s.mu = some (.api i) then f pc else s.ofHolder f := by
  unfold ofHolder setApi
  dsimp only
  split
  · next j h =>
    rw [h]
    simp only [Option.some.injEq, Holder.api.injEq]
    split <;> rfl
  · next h =>
    rw [if_neg]
    intro e
    exact h i e

theorem ofHolder_of_mu {s : Sys} {i : Nat} (h : s.mu = some (.api i)) (f : ApiPc → Nat) : s.ofHolder f = f (s.api i) := by
  unfold ofHolder; rw [h]

theorem holds_setApi (s : Sys) (i : Nat) (pc : ApiPc) (h : Holder) :
    (s.setApi i pc).holds h = if h = .api i then pc.locked else s.holds h := by
  cases h with
  | api j =>
    simp only [holds, setApi, Holder.api.injEq]
    by_cases e : j = i <;> simp [e]
  | run g => simp [holds, setApi]
  | conn c => simp [holds, setApi]

theorem holds_setRun {s : Sys} {g : Nat} {r0 : RunG} (hr : s.runs[g]? = some r0) (r : RunG) (h : Holder) :
    (s.setRun g r).holds h = if h = .run g then r.pc.locked else s.holds h := by
  have hlt : g < s.runs.length := (List.getElem?_eq_some_iff.1 hr).1
  cases h with
  | run j =>
    simp only [holds, setRun, Holder.run.injEq]
    by_cases e : j = g
    · subst e; simp [hlt]
    · simp [e, Ne.symm e]
  | api _ => simp [holds, setRun]
  | conn c => simp [holds, setRun]

theorem holds_setConn {s : Sys} {c : Nat} {k0 : ConnG} (hk : s.conns[c]? = some k0) (k : ConnG) (h : Holder) :
    (s.setConn c k).holds h = if h = .conn c then k.pc.locked else s.holds h := by
  have hlt : c < s.conns.length := (List.getElem?_eq_some_iff.1 hk).1
  cases h with
  | conn j =>
    simp only [holds, setConn, Holder.conn.injEq]
    by_cases e : j = c
    · subst e; simp [hlt]
    · simp [e, Ne.symm e]
  | api _ => simp [holds, setConn]
  | run c => simp [holds, setConn]

/-- The four ways in which a step changes who holds `km.mu`. -/
theorem mu_step {s s' : Sys} {h0 : Holder} {b : Bool} (hm : ∀ h, s.holds h = true ↔ s.mu = some h) (hh : ∀ h, s'.holds h = if h = h0 then b else s.holds h)
    (hmu : (s'.mu = s.mu ∧ b = s.holds h0) ∨ (s.mu = none ∧ s'.mu = some h0 ∧ b = true) ∨ (s.holds h0 = true ∧ s'.mu = none ∧ b = false)) :
    ∀ h, s'.holds h = true ↔ s'.mu = some h := by
  intro h
  rw [hh h]
  rcases hmu with ⟨e, hb⟩ | ⟨e0, e, hb⟩ | ⟨e0, e, hb⟩
  · rw [e, hb, ← hm h]
    by_cases hx : h = h0
    · rw [if_pos hx, hx]
    · rw [if_neg hx]
  · rw [e, hb]
    by_cases hx : h = h0
    · rw [if_pos hx, hx]; simp
    · rw [if_neg hx, hm h, e0]
      constructor
      · intro hh; cases hh
      · intro hh; cases hh; exact absurd rfl hx
  · rw [e, hb]
    by_cases hx : h = h0
    · rw [if_pos hx]; simp
    · rw [if_neg hx]
      constructor
      · intro hh
        rw [hm h, (hm h0).1 e0] at hh
        cases hh
        exact absurd rfl hx
      · intro hh; cases hh

/-- A step of caller `i` to `pc`: how the weight of the holder of `km.mu` changes. -/
theorem ofHolder_step {s s' : Sys} {i : Nat} {pc : ApiPc} (hm : ∀ h, s.holds h = true ↔ s.mu = some h)
    (hapi : ∀ j, s'.api j = if j = i then pc else s.api j)
    (hmu : (s'.mu = s.mu ∧ pc.locked = s.holds (.api i)) ∨ (s.mu = none ∧ s'.mu = some (.api i) ∧ pc.locked = true) ∨
      (s.holds (.api i) = true ∧ s'.mu = none ∧ pc.locked = false))
    (f : ApiPc → Nat) (hf : ∀ pc, pc.locked = false → f pc = 0) : s'.ofHolder f + f (s.api i) = s.ofHolder f + f pc := by
  have key : s.mu = some (.api i) ∨ s.mu ≠ some (.api i) ∧ f (s.api i) = 0 := by
    by_cases e : s.mu = some (.api i)
    · exact .inl e
    · refine .inr ⟨e, hf _ ?_⟩
      have := mt (hm (.api i)).1 e
      simpa [holds] using this
  rcases hmu with ⟨e, hb⟩ | ⟨e0, e, hb⟩ | ⟨e0, e, hb⟩
  · rcases key with e1 | ⟨e1, e2⟩
    · rw [ofHolder_of_mu e1, ofHolder_of_mu (e.trans e1), hapi, if_pos rfl]; omega
    · have e3 : f pc = 0 := hf _ (by
        rw [hb]
        have := mt (hm (.api i)).1 e1
        simpa using this)
      have : s'.ofHolder f = s.ofHolder f := by
        unfold ofHolder
        rw [e]
        split
        · next j hj =>
          rw [hapi, if_neg]
          intro h; subst h; exact e1 hj
        · rfl
      omega
  · rcases key with e1 | ⟨e1, e2⟩
    · rw [e0] at e1; cases e1
    · rw [ofHolder_of_mu e, hapi, if_pos rfl, e2]
      unfold ofHolder; rw [e0]; simp
  · have e1 := (hm _).1 e0
    rw [ofHolder_of_mu e1, hf _ hb]
    unfold ofHolder; rw [e]; simp

theorem starting_locked (pc : ApiPc) (h : pc.locked = false) : pc.starting = 0 := by
  unfold ApiPc.starting; split <;> first | rfl | cases h

theorem startingWg_locked (pc : ApiPc) (h : pc.locked = false) : pc.startingWg = 0 := by
  unfold ApiPc.startingWg; split <;> first | rfl | cases h

theorem startingInit_locked (pc : ApiPc) (h : pc.locked = false) : pc.startingInit = 0 := by
  unfold ApiPc.startingInit; split <;> first | rfl | cases h

/-- A step of caller `i` to `pc` that starts no goroutine keeps the invariant. -/
theorem Inv.api {s s' : Sys} (h : s.Inv) {i : Nat} {pc : ApiPc} (hapi : ∀ j, s'.api j = if j = i then pc else s.api j)
    (hmu : (s'.mu = s.mu ∧ pc.locked = (s.api i).locked) ∨ (s.mu = none ∧ s'.mu = some (.api i) ∧ pc.locked = true) ∨
      ((s.api i).locked = true ∧ s'.mu = none ∧ pc.locked = false))
    (hr : s'.runs = s.runs) (hc : s'.conns = s.conns)
    (h1 : (if s'.started then 1 else 0) + (s.api i).starting = (if s.started then 1 else 0) + pc.starting)
    (h2 : s'.wg + (s.api i).startingWg = s.wg + pc.startingWg) (h3 : s'.active = s.active)
    (h4 : s'.init + (s.api i).startingInit = s.init + pc.startingInit) : s'.Inv := by
  have hmu' : (s'.mu = s.mu ∧ pc.locked = s.holds (.api i)) ∨ (s.mu = none ∧ s'.mu = some (.api i) ∧ pc.locked = true) ∨
      (s.holds (.api i) = true ∧ s'.mu = none ∧ pc.locked = false) := hmu
  have f1 := ofHolder_step h.mu hapi hmu' _ starting_locked
  have f2 := ofHolder_step h.mu hapi hmu' _ startingWg_locked
  have f3 := ofHolder_step h.mu hapi hmu' _ startingInit_locked
  have hh : ∀ x, s'.holds x = if x = .api i then pc.locked else s.holds x := by
    intro x
    cases x with
    | api j =>
      simp only [holds, Holder.api.injEq, hapi]
      split <;> rfl
    | run g => simp [holds, hr]
    | conn c => simp [holds, hc]
  have i1 := h.started
  have i2 := h.wg
  have i3 := h.active
  have i4 := h.init
  refine ⟨mu_step h.mu hh hmu', ?_, ?_, ?_, ?_, ?_, ?_⟩
  · rw [hr]; omega
  · rw [hr, hc]; omega
  · rw [hr, hc]; omega
  · rw [hr]; omega
  · rw [hr, hc]; exact h.fresh
  · rw [hr, hc]; exact h.gen

/-- Changes of the other fields do not matter. -/
theorem Inv.congr {s s' : Sys} (h : s.Inv) (e1 : s'.mu = s.mu) (e2 : s'.started = s.started) (e3 : s'.wg = s.wg) (e4 : s'.active = s.active)
    (e5 : s'.init = s.init) (e6 : s'.api = s.api) (e7 : s'.runs = s.runs) (e8 : s'.conns = s.conns) : s'.Inv := by
  obtain ⟨h1, h2, h3, h4, h5, h6, h7⟩ := h
  have hh : ∀ x, s'.holds x = s.holds x := by intro x; cases x <;> simp only [holds, e6, e7, e8]
  have ho : ∀ f, s'.ofHolder f = s.ofHolder f := by intro f; simp only [ofHolder, e1, e6]
  refine ⟨?_, ?_, ?_, ?_, ?_, ?_, ?_⟩
  · intro x; rw [hh, e1]; exact h1 x
  · rw [ho, e7, e2]; exact h2
  · rw [ho, e7, e8, e3]; exact h3
  · rw [e7, e8, e4]; exact h4
  · rw [ho, e7, e5]; exact h5
  · rw [e7, e8]; exact h6
  · rw [e7, e8]; exact h7

/-- Waking those who wait keeps the invariant. -/
theorem Inv.wake {s : Sys} (h : s.Inv) (f : ApiPc → ApiPc) (hl : ∀ pc, (f pc).locked = pc.locked) (h1 : ∀ pc, (f pc).starting = pc.starting)
    (h2 : ∀ pc, (f pc).startingWg = pc.startingWg) (h3 : ∀ pc, (f pc).startingInit = pc.startingInit) :
    Inv { s with api := fun j => f (s.api j) } := by
  obtain ⟨i1, i2, i3, i4, i5, i6, i7⟩ := h
  refine ⟨?_, ?_, ?_, i4, ?_, i6, i7⟩
  · intro x
    rw [← i1 x]
    cases x <;> simp only [holds, hl]
  · refine Eq.trans ?_ i2
    unfold ofHolder
    dsimp only
    congr 1
    split <;> simp only [h1]
  · refine i3.trans ?_
    unfold ofHolder
    dsimp only
    congr 2
    split <;> simp only [h2]
  · refine i5.trans ?_
    unfold ofHolder
    dsimp only
    congr 1
    split <;> simp only [h3]

theorem startStep_inv {s s' : Sys} (h : s.Inv) {i : Nat} {r : Bool} {k : StartPc} (hk : s.api i = .start k r) (hn : s.startStep i r k = .ok s') : s'.Inv := by
  cases k
  case lock =>
    simp only [startStep, lockMu] at hn
    split at hn
    · next hm => cases hn; exact h.api (fun j => rfl) (.inr (.inl ⟨hm, rfl, rfl⟩)) rfl rfl (by rw [hk]; rfl) (by rw [hk]; rfl) rfl (by rw [hk]; rfl)
    · cases hn
  case swap =>
    simp only [startStep] at hn
    split at hn
    · cases hn; exact h.api (fun j => rfl) (.inl ⟨rfl, by rw [hk]; rfl⟩) rfl rfl (by rw [hk]; rfl) (by rw [hk]; rfl) rfl (by rw [hk]; rfl)
    · next hs => cases hn; exact h.api (fun j => rfl) (.inl ⟨rfl, by rw [hk]; rfl⟩) rfl rfl (by rw [hk]; simp [hs, setApi, ApiPc.starting]) (by rw [hk]; rfl) rfl (by rw [hk]; rfl)
  case spawn =>
    simp only [startStep] at hn
    cases hn
    have hmu' : ((({ s with runs := s.runs ++ [⟨.listen, 0⟩] } : Sys).setApi i (.start .unlock r)).mu = s.mu ∧ (ApiPc.start .unlock r).locked = s.holds (.api i)) :=
      ⟨rfl, by show _ = (s.api i).locked; rw [hk]; rfl⟩
    have f1 := ofHolder_step (s' := ({ s with runs := s.runs ++ [⟨.listen, 0⟩] } : Sys).setApi i (.start .unlock r)) h.mu (fun j => rfl) (.inl hmu') _ starting_locked
    have f2 := ofHolder_step (s' := ({ s with runs := s.runs ++ [⟨.listen, 0⟩] } : Sys).setApi i (.start .unlock r)) h.mu (fun j => rfl) (.inl hmu') _ startingWg_locked
    have f3 := ofHolder_step (s' := ({ s with runs := s.runs ++ [⟨.listen, 0⟩] } : Sys).setApi i (.start .unlock r)) h.mu (fun j => rfl) (.inl hmu') _ startingInit_locked
    rw [hk] at f1 f2 f3
    simp only [ApiPc.starting, ApiPc.startingWg, ApiPc.startingInit] at f1 f2 f3
    have i1 := h.started
    have i2 := h.wg
    have i3 := h.active
    have i4 := h.init
    refine ⟨?_, ?_, ?_, ?_, ?_, ?_, ?_⟩
    · refine mu_step (h0 := .api i) (b := true) h.mu ?_ (.inl ⟨rfl, by show _ = (s.api i).locked; rw [hk]; rfl⟩)
      intro x
      cases x with
      | api j => simp only [holds, setApi, Holder.api.injEq]; split <;> rfl
      | run g =>
        simp only [holds, setApi, reduceCtorEq, ↓reduceIte]
        by_cases hg : g < s.runs.length
        · rw [List.getElem?_append_left hg]
        · rw [List.getElem?_append_right (by omega), List.getElem?_eq_none (l := s.runs) (by omega)]
          cases g - s.runs.length <;> simp [RunPc.locked]
      | conn c => rfl
    · simp only [setApi, List.countP_append, List.countP_singleton] at f1 ⊢
      simp only [show RunPc.listen.running = true from rfl, if_true]; omega
    · simp only [setApi, List.countP_append, List.countP_singleton] at f2 ⊢
      simp only [show RunPc.listen.inWg = true from rfl, if_true]; omega
    · simp only [setApi, List.countP_append, List.countP_singleton]
      simp only [show (RunPc.listen == RunPc.addActive) = false from rfl, Bool.false_eq_true, if_false]; omega
    · simp only [setApi, List.countP_append, List.countP_singleton] at f3 ⊢
      simp only [show RunPc.listen.initializing = true from rfl, if_true]; omega
    · intro g x hx hp
      simp only [setApi] at hx ⊢
      by_cases hg : g < s.runs.length
      · rw [List.getElem?_append_left hg] at hx
        exact h.fresh g x hx hp
      · rw [List.getElem?_append_right (by omega)] at hx
        cases hd : g - s.runs.length with
        | zero => rw [hd] at hx; cases hx; rcases hp with hp | hp <;> cases hp
        | succ n => rw [hd] at hx; cases hx
    · intro c x hx
      simp only [setApi, List.length_append] at hx ⊢
      have := h.gen c x hx
      omega
  case unlock =>
    simp only [startStep] at hn
    cases hn
    exact h.api (fun j => rfl) (.inr (.inr ⟨by rw [hk]; rfl, rfl, by cases r <;> rfl⟩)) rfl rfl (by rw [hk]; cases r <;> rfl) (by rw [hk]; cases r <;> rfl) rfl (by rw [hk]; cases r <;> rfl)
  case panicUnlock =>
    simp only [startStep] at hn
    cases hn
    exact h.api (fun j => rfl) (.inr (.inr ⟨by rw [hk]; rfl, rfl, rfl⟩)) rfl rfl (by rw [hk]; rfl) (by rw [hk]; rfl) rfl (by rw [hk]; rfl)
  all_goals
    simp only [startStep] at hn
    cases hn
    exact h.api (fun j => rfl) (.inl ⟨rfl, by rw [hk]; rfl⟩) rfl rfl (by rw [hk]; rfl) (by rw [hk]; rfl) rfl (by rw [hk]; rfl)

theorem ite_locked {c : Prop} [Decidable c] {a b : ApiPc} (ha : a.locked = false) (hb : b.locked = false) : (if c then a else b).locked = false := by
  split <;> assumption

theorem waitStep_inv {s s' : Sys} (h : s.Inv) {i n : Nat} {k : WaitPc} {at' : WaitPc → ApiPc} {after : ApiPc} (h0 : (s.api i).locked = false)
    (h1 : ∀ k, (at' k).locked = false) (h2 : after.locked = false) (hn : s.waitStep i n k at' after = .ok s') : s'.Inv := by
  have key : ∀ pc : ApiPc, pc.locked = false → (s.setApi i pc).Inv := fun pc hp =>
    h.api (fun j => rfl) (.inl ⟨rfl, by rw [hp, h0]⟩) rfl rfl (by rw [starting_locked _ hp, starting_locked _ h0]; rfl)
      (by rw [startingWg_locked _ hp, startingWg_locked _ h0]; rfl) rfl (by rw [startingInit_locked _ hp, startingInit_locked _ h0]; rfl)
  cases k with
  | enter =>
    simp only [waitStep] at hn; cases hn
    exact key _ (ite_locked (h2) (h1 _))
  | asleep => cases hn
  | woken =>
    simp only [waitStep] at hn; cases hn
    exact key _ (ite_locked (h2) (rfl))

/-- A step of a caller that does not hold `km.mu` before or after. -/
theorem Inv.apiFree {s s' : Sys} (h : s.Inv) {i : Nat} {pc : ApiPc} (hapi : ∀ j, s'.api j = if j = i then pc else s.api j)
    (h0 : (s.api i).locked = false) (hp : pc.locked = false) (hmu : s'.mu = s.mu)
    (hr : s'.runs = s.runs) (hc : s'.conns = s.conns) (h1 : s'.started = s.started)
    (h2 : s'.wg = s.wg) (h3 : s'.active = s.active) (h4 : s'.init = s.init) : s'.Inv :=
  h.api hapi (.inl ⟨hmu, by rw [hp, h0]⟩) hr hc (by rw [starting_locked _ hp, starting_locked _ h0, h1])
    (by rw [startingWg_locked _ hp, startingWg_locked _ h0, h2]) h3 (by rw [startingInit_locked _ hp, startingInit_locked _ h0, h4])

theorem StopBy.next_locked (b : StopBy) : b.next.locked = false := by cases b <;> rfl

theorem stopStep_inv {s s' : Sys} (h : s.Inv) {i : Nat} {b : StopBy} {k : StopPc} (hk : s.api i = .stop k b) (hn : s.stopStep i b k = .ok s') : s'.Inv := by
  cases k with
  | swap =>
    simp only [stopStep] at hn; cases hn
    exact h.apiFree (fun j => rfl) (by rw [hk]; rfl) (ite_locked (StopBy.next_locked b) (rfl)) rfl rfl rfl rfl rfl rfl rfl
  | load =>
    simp only [stopStep] at hn; cases hn
    exact h.apiFree (fun j => rfl) (by rw [hk]; rfl) (ite_locked (rfl) (StopBy.next_locked b)) rfl rfl rfl rfl rfl rfl rfl
  | init k =>
    simp only [stopStep] at hn
    exact waitStep_inv h (by rw [hk]; rfl) (fun _ => rfl) rfl hn
  | lock =>
    simp only [stopStep, lockMu] at hn
    split at hn
    · next hm => cases hn; exact h.api (fun j => rfl) (.inr (.inl ⟨hm, rfl, rfl⟩)) rfl rfl (by rw [hk]; rfl) (by rw [hk]; rfl) rfl (by rw [hk]; rfl)
    · cases hn
  | close =>
    simp only [stopStep] at hn
    split at hn <;> cases hn
    all_goals exact h.api (fun j => rfl) (.inl ⟨rfl, by rw [hk]; rfl⟩) rfl rfl (by rw [hk]; rfl) (by rw [hk]; rfl) rfl (by rw [hk]; rfl)
  | unlock =>
    simp only [stopStep] at hn; cases hn
    exact h.api (fun j => rfl) (.inr (.inr ⟨by rw [hk]; rfl, rfl, rfl⟩)) rfl rfl (by rw [hk]; rfl) (by rw [hk]; rfl) rfl (by rw [hk]; rfl)
  | cancel =>
    simp only [stopStep] at hn
    split at hn <;> cases hn
    · exact h.apiFree (fun j => rfl) (by rw [hk]; rfl) (StopBy.next_locked b) rfl rfl rfl rfl rfl rfl rfl
    · exact h.apiFree (fun j => rfl) (by rw [hk]; rfl) rfl rfl rfl rfl rfl rfl rfl rfl

theorem Call.entry_locked (c : Call) : c.entry.locked = false := by cases c <;> rfl

theorem apiStep_inv {s s' : Sys} (h : s.Inv) {i : Nat} {c : Call} (hn : s.apiStep i c = .ok s') : s'.Inv := by
  unfold apiStep at hn
  split at hn
  · next hk => cases hn; exact h.apiFree (fun j => rfl) (by rw [hk]; rfl) (Call.entry_locked c) rfl rfl rfl rfl rfl rfl rfl
  · next hk => cases hn; exact h.apiFree (fun j => rfl) (by rw [hk]; rfl) rfl rfl rfl rfl rfl rfl rfl rfl
  · next hk => exact startStep_inv h hk hn
  · next hk => exact stopStep_inv h hk hn
  · next hk => exact waitStep_inv h (by rw [hk]; rfl) (fun _ => rfl) rfl hn
  · next hk => exact waitStep_inv h (by rw [hk]; rfl) (fun _ => rfl) rfl hn
  · next hk =>
    split at hn <;> cases hn
    all_goals exact h.apiFree (fun j => rfl) (by rw [hk]; rfl) rfl rfl rfl rfl rfl rfl rfl rfl
  · next hk => cases hn; exact h.apiFree (fun j => rfl) (by rw [hk]; rfl) rfl rfl rfl rfl rfl rfl rfl rfl
  · cases hn
  · cases hn

/-- The holder's weight does not change when an accept loop or a connection locks or unlocks `km.mu`. -/
theorem ofHolder_other {s s' : Sys} {h0 : Holder} {b : Bool} (hn : ∀ i, h0 ≠ .api i) (hm : ∀ h, s.holds h = true ↔ s.mu = some h) (hapi : s'.api = s.api)
    (hmu : (s'.mu = s.mu ∧ b = s.holds h0) ∨ (s.mu = none ∧ s'.mu = some h0 ∧ b = true) ∨ (s.holds h0 = true ∧ s'.mu = none ∧ b = false))
    (f : ApiPc → Nat) : s'.ofHolder f = s.ofHolder f := by
  unfold ofHolder
  rw [hapi]
  rcases hmu with ⟨e, _⟩ | ⟨e0, e, _⟩ | ⟨e0, e, _⟩
  · rw [e]
  · rw [e0, e]
    cases h0 with
    | api i => exact absurd rfl (hn i)
    | _ => rfl
  · rw [(hm _).1 e0, e]
    cases h0 with
    | api i => exact absurd rfl (hn i)
    | _ => rfl

theorem getElem?_set_cases {α : Type _} {l : List α} {i j : Nat} {x y : α} (h : (l.set i x)[j]? = some y) :
    (j = i ∧ y = x) ∨ (j ≠ i ∧ l[j]? = some y) := by
  by_cases e : j = i
  · subst e
    rw [List.getElem?_set_self'] at h
    cases hl : l[j]? with
    | none => rw [hl] at h; cases h
    | some z => rw [hl] at h; cases h; exact .inl ⟨rfl, rfl⟩
  · rw [List.getElem?_set_ne (Ne.symm e)] at h
    exact .inr ⟨e, h⟩

/-- A step of accept loop `g`. -/
theorem Inv.run {s s' : Sys} (h : s.Inv) {g : Nat} {r r' : RunG} (hr : s.runs[g]? = some r) (hr' : s'.runs = s.runs.set g r')
    (hapi : s'.api = s.api) (hc : s'.conns = s.conns)
    (hmu : (s'.mu = s.mu ∧ r'.pc.locked = r.pc.locked) ∨ (s.mu = none ∧ s'.mu = some (.run g) ∧ r'.pc.locked = true) ∨
      (r.pc.locked = true ∧ s'.mu = none ∧ r'.pc.locked = false))
    (h1 : (if s'.started then 1 else 0) + (if r.pc.running then 1 else 0) = (if s.started then 1 else 0) + (if r'.pc.running then 1 else 0))
    (h2 : s'.wg + (if r.pc.inWg then 1 else 0) = s.wg + (if r'.pc.inWg then 1 else 0))
    (h3 : s'.active + (if r'.pc == .addActive then 1 else 0) = s.active + (if r.pc == .addActive then 1 else 0))
    (h4 : s'.init + (if r.pc.initializing then 1 else 0) = s.init + (if r'.pc.initializing then 1 else 0))
    (h5 : (r'.pc = .addActive ∨ r'.pc = .addWg) → (r.pc = .addActive ∨ r.pc = .addWg)) : s'.Inv := by
  have hh0 : s.holds (.run g) = r.pc.locked := by simp [holds, hr]
  have hmu' : (s'.mu = s.mu ∧ r'.pc.locked = s.holds (.run g)) ∨ (s.mu = none ∧ s'.mu = some (.run g) ∧ r'.pc.locked = true) ∨
      (s.holds (.run g) = true ∧ s'.mu = none ∧ r'.pc.locked = false) := by rw [hh0]; exact hmu
  have ho := ofHolder_other (fun i => by intro e; cases e) h.mu hapi hmu'
  have hh : ∀ x, s'.holds x = if x = .run g then r'.pc.locked else s.holds x := by
    intro x
    rw [← holds_setRun hr r' x]
    cases x <;> simp only [holds, setRun, hapi, hr', hc]
  have i1 := h.started
  have i2 := h.wg
  have i3 := h.active
  have i4 := h.init
  refine ⟨mu_step h.mu hh hmu', ?_, ?_, ?_, ?_, ?_, ?_⟩
  · have := countP_set (fun r : RunG => r.pc.running) hr r'
    rw [hr', ho]; omega
  · have := countP_set (fun r : RunG => r.pc.inWg) hr r'
    rw [hr', ho, hc]; omega
  · have := countP_set (fun r : RunG => r.pc == .addActive) hr r'
    rw [hr', hc]; omega
  · have := countP_set (fun r : RunG => r.pc.initializing) hr r'
    rw [hr', ho]; omega
  · intro g' x hx hp
    rw [hr'] at hx
    rw [hc]
    rcases getElem?_set_cases hx with ⟨rfl, rfl⟩ | ⟨_, hx⟩
    · exact h.fresh _ r hr (h5 hp)
    · exact h.fresh _ x hx hp
  · rw [hr', hc, List.length_set]; exact h.gen

/-- A step of connection `c`. -/
theorem Inv.conn {s s' : Sys} (h : s.Inv) {c : Nat} {k k' : ConnG} (hk : s.conns[c]? = some k) (hc : s'.conns = s.conns.set c k')
    (hapi : s'.api = s.api) (hr : s'.runs = s.runs) (hg : k'.gen = k.gen)
    (hmu : (s'.mu = s.mu ∧ k'.pc.locked = k.pc.locked) ∨ (s.mu = none ∧ s'.mu = some (.conn c) ∧ k'.pc.locked = true) ∨
      (k.pc.locked = true ∧ s'.mu = none ∧ k'.pc.locked = false))
    (h1 : s'.started = s.started)
    (h2 : s'.wg + (if k.pc.inWg then 1 else 0) = s.wg + (if k'.pc.inWg then 1 else 0))
    (h3 : s'.active + (if k.pc.inActive then 1 else 0) = s.active + (if k'.pc.inActive then 1 else 0))
    (h4 : s'.init = s.init)
    (h5 : k.pc.early = true → k'.pc.early = true ∨ s.mu = none) : s'.Inv := by
  have hh0 : s.holds (.conn c) = k.pc.locked := by simp [holds, hk]
  have hmu' : (s'.mu = s.mu ∧ k'.pc.locked = s.holds (.conn c)) ∨ (s.mu = none ∧ s'.mu = some (.conn c) ∧ k'.pc.locked = true) ∨
      (s.holds (.conn c) = true ∧ s'.mu = none ∧ k'.pc.locked = false) := by rw [hh0]; exact hmu
  have ho := ofHolder_other (fun i => by intro e; cases e) h.mu hapi hmu'
  have hh : ∀ x, s'.holds x = if x = .conn c then k'.pc.locked else s.holds x := by
    intro x
    rw [← holds_setConn hk k' x]
    cases x <;> simp only [holds, setConn, hapi, hr, hc]
  have i1 := h.started
  have i2 := h.wg
  have i3 := h.active
  have i4 := h.init
  have c1 := countP_set (fun k : ConnG => k.pc.inWg) hk k'
  have c2 := countP_set (fun k : ConnG => k.pc.inActive) hk k'
  refine ⟨mu_step h.mu hh hmu', ?_, ?_, ?_, ?_, ?_, ?_⟩
  · rw [hr, ho, h1]; exact i1
  · rw [hr, ho, hc]; omega
  · rw [hr, hc]; omega
  · rw [hr, ho, h4]; exact i4
  · intro g x hx hp
    rw [hr] at hx
    obtain ⟨c', k0, e1, e2, e3⟩ := h.fresh g x hx hp
    rw [hc]
    by_cases e : c' = c
    · subst e
      rw [hk] at e1
      cases e1
      have hlt : c' < s.conns.length := (List.getElem?_eq_some_iff.1 hk).1
      refine ⟨c', k', by rw [List.getElem?_set_self hlt], ?_, by rw [hg]; exact e3⟩
      rcases h5 e2 with h | h0
      · exact h
      · exfalso
        have hl : x.pc.locked = true := by rcases hp with hp | hp <;> rw [hp] <;> rfl
        have := (h.mu (.run g)).1 (by simp [holds, hx, hl])
        rw [h0] at this; cases this
    · exact ⟨c', k0, by rw [List.getElem?_set_ne (Ne.symm e)]; exact e1, e2, e3⟩
  · intro c' x hx
    rw [hc] at hx
    rw [hr]
    rcases getElem?_set_cases hx with ⟨rfl, rfl⟩ | ⟨_, hx⟩
    · rw [hg]; exact h.gen _ k hk
    · exact h.gen _ x hx

theorem wakeWg_locked (pc : ApiPc) : pc.wakeWg.locked = pc.locked := by unfold ApiPc.wakeWg; split <;> rfl
theorem wakeInit_locked (pc : ApiPc) : pc.wakeInit.locked = pc.locked := by unfold ApiPc.wakeInit; split <;> rfl

theorem Inv.wakeWg {s : Sys} (h : s.Inv) : Inv { s with api := fun j => (s.api j).wakeWg } :=
  h.wake _ wakeWg_locked (fun pc => by unfold ApiPc.wakeWg; split <;> rfl) (fun pc => by unfold ApiPc.wakeWg; split <;> rfl)
    (fun pc => by unfold ApiPc.wakeWg; split <;> rfl)

theorem Inv.wakeInit {s : Sys} (h : s.Inv) : Inv { s with api := fun j => (s.api j).wakeInit } :=
  h.wake _ wakeInit_locked (fun pc => by unfold ApiPc.wakeInit; split <;> rfl) (fun pc => by unfold ApiPc.wakeInit; split <;> rfl)
    (fun pc => by unfold ApiPc.wakeInit; split <;> rfl)

theorem runStep_inv {s s' : Sys} (h : s.Inv) {g : Nat} {ok : Bool} (hn : s.runStep g ok = .ok s') : s'.Inv := by
  unfold runStep at hn
  split at hn
  · cases hn
  next r hr =>
  dsimp only at hn
  split at hn
  · next hp =>
    split at hn
    · cases hn
      exact h.run hr rfl rfl rfl (.inl ⟨rfl, by rw [hp]; rfl⟩) (by rw [hp]; rfl) (by rw [hp]; rfl) (by rw [hp]; rfl) (by rw [hp]; rfl) (by rintro (e | e) <;> cases e)
    · cases hn
  · next hp =>
    cases hn
    exact h.run hr rfl rfl rfl (.inl ⟨rfl, by rw [hp]; rfl⟩) (by rw [hp]; rfl) (by rw [hp]; rfl) (by rw [hp]; rfl) (by rw [hp]; rfl) (by rintro (e | e) <;> cases e)
  · next hp =>
    split at hn
    · next s1 e =>
      cases hn
      unfold initDone at e
      split at e <;> cases e
      · next e0 =>
        refine Inv.run (s := { s with api := fun j => (s.api j).wakeInit }) h.wakeInit hr rfl rfl rfl (.inl ⟨rfl, by rw [hp]; rfl⟩) (by rw [hp]; rfl) (by rw [hp]; rfl) (by rw [hp]; rfl) ?_ (by rintro (e | e) <;> cases e)
        rw [hp]; simp [setRun, RunPc.initializing, e0]
      · next e0 =>
        refine Inv.run h hr rfl rfl rfl (.inl ⟨rfl, by rw [hp]; rfl⟩) (by rw [hp]; rfl) (by rw [hp]; rfl) (by rw [hp]; rfl) ?_ (by rintro (e | e) <;> cases e)
        rw [hp]; simp [setRun, RunPc.initializing, e0]
    · next hx => exact absurd hn (hx s')
  · next hp =>
    split at hn
    · cases hn
      exact h.run hr rfl rfl rfl (.inl ⟨rfl, by rw [hp]; rfl⟩) (by rw [hp]; rfl) (by rw [hp]; rfl) (by rw [hp]; rfl) (by rw [hp]; rfl) (by rintro (e | e) <;> cases e)
    · split at hn
      · cases hn
        exact h.run hr rfl rfl rfl (.inl ⟨rfl, by rw [hp]; rfl⟩) (by rw [hp]; rfl) (by rw [hp]; rfl) (by rw [hp]; rfl) (by rw [hp]; rfl) (by rintro (e | e) <;> cases e)
      · cases hn
  · next hp =>
    cases hn
    split
    all_goals
      exact h.run hr rfl rfl rfl (.inl ⟨rfl, by rw [hp]; rfl⟩) (by rw [hp]; rfl) (by rw [hp]; rfl) (by rw [hp]; rfl) (by rw [hp]; rfl) (by rintro (e | e) <;> cases e)
  · next hp =>
    unfold lockMu at hn
    split at hn
    · next hm =>
      cases hn
      exact h.run hr rfl rfl rfl (.inr (.inl ⟨hm, rfl, rfl⟩)) (by rw [hp]; rfl) (by rw [hp]; rfl) (by rw [hp]; rfl) (by rw [hp]; rfl) (by rintro (e | e) <;> cases e)
    · cases hn
  · next hp =>
    cases hn
    have hh0 : s.holds (.run g) = true := by simp [holds, hr, hp, RunPc.locked]
    have hlt : g < s.runs.length := (List.getElem?_eq_some_iff.1 hr).1
    have i1 := h.started
    have i2 := h.wg
    have i3 := h.active
    have i4 := h.init
    refine ⟨mu_step (h0 := .run g) (b := true) h.mu ?_ (.inl ⟨rfl, hh0.symm⟩), ?_, ?_, ?_, ?_, ?_, ?_⟩
    · intro x
      cases x with
      | api j => rfl
      | run j =>
        simp only [holds, Holder.run.injEq]
        by_cases e : j = g
        · subst e; simp [hlt, RunPc.locked]
        · simp [e, Ne.symm e]
      | conn c =>
        simp only [holds, reduceCtorEq, ↓reduceIte]
        by_cases hc : c < s.conns.length
        · rw [List.getElem?_append_left hc]
        · rw [List.getElem?_append_right (by omega), List.getElem?_eq_none (l := s.conns) (by omega)]
          cases c - s.conns.length <;> simp [ConnPc.locked]
    · have c1 := countP_set (fun r : RunG => r.pc.running) hr ⟨.addActive, r.cxn + 1⟩
      simp only [hp, show RunPc.addActive.running = true from rfl, show RunPc.register.running = true from rfl, if_true] at c1
      show s.ofHolder _ + _ = _
      dsimp only
      omega
    · have c1 := countP_set (fun r : RunG => r.pc.inWg) hr ⟨.addActive, r.cxn + 1⟩
      simp only [hp, show RunPc.addActive.inWg = false from rfl, show RunPc.register.inWg = true from rfl, if_true, Bool.false_eq_true, if_false] at c1
      show _ = s.ofHolder _ + _ + _
      dsimp only
      rw [List.countP_append, List.countP_singleton, if_pos (by rfl)]
      omega
    · have c1 := countP_set (fun r : RunG => r.pc == .addActive) hr ⟨.addActive, r.cxn + 1⟩
      simp only [hp, show (RunPc.addActive == RunPc.addActive) = true from rfl, show (RunPc.register == RunPc.addActive) = false from rfl, if_true, Bool.false_eq_true, if_false] at c1
      dsimp only
      rw [List.countP_append, List.countP_singleton, if_pos (by rfl)]
      omega
    · have c1 := countP_set (fun r : RunG => r.pc.initializing) hr ⟨.addActive, r.cxn + 1⟩
      simp only [hp, show RunPc.addActive.initializing = false from rfl, show RunPc.register.initializing = false from rfl, Bool.false_eq_true, if_false] at c1
      show _ = s.ofHolder _ + _
      dsimp only
      omega
    · intro g' x hx hpx
      dsimp only at hx ⊢
      rcases getElem?_set_cases hx with ⟨rfl, rfl⟩ | ⟨hne, hx⟩
      · exact ⟨s.conns.length, _, by rw [List.getElem?_append_right (Nat.le_refl _), Nat.sub_self]; rfl, rfl, rfl⟩
      · obtain ⟨c, k, e1, e2, e3⟩ := h.fresh _ x hx hpx
        have hc : c < s.conns.length := (List.getElem?_eq_some_iff.1 e1).1
        exact ⟨c, k, by rw [List.getElem?_append_left hc]; exact e1, e2, e3⟩
    · intro c x hx
      dsimp only at hx ⊢
      rw [List.length_set]
      by_cases hc : c < s.conns.length
      · rw [List.getElem?_append_left hc] at hx; exact h.gen c x hx
      · rw [List.getElem?_append_right (by omega)] at hx
        cases hd : c - s.conns.length with
        | zero => rw [hd] at hx; cases hx; exact hlt
        | succ n => rw [hd] at hx; cases hx
  · next hp =>
    cases hn
    exact h.run hr rfl rfl rfl (.inl ⟨rfl, by rw [hp]; rfl⟩) (by rw [hp]; rfl) (by rw [hp]; rfl) (by rw [hp]; rfl) (by rw [hp]; rfl) (fun _ => .inl hp)
  · next hp =>
    cases hn
    exact h.run hr rfl rfl rfl (.inl ⟨rfl, by rw [hp]; rfl⟩) (by rw [hp]; rfl) (by rw [hp]; rfl) (by rw [hp]; rfl) (by rw [hp]; rfl) (by rintro (e | e) <;> cases e)
  · next hp =>
    cases hn
    exact h.run hr rfl rfl rfl (.inr (.inr ⟨by rw [hp]; rfl, rfl, rfl⟩)) (by rw [hp]; rfl) (by rw [hp]; rfl) (by rw [hp]; rfl) (by rw [hp]; rfl) (by rintro (e | e) <;> cases e)
  · next hp =>
    split at hn
    · cases hn
      exact h.run hr rfl rfl rfl (.inl ⟨rfl, by rw [hp]; rfl⟩) (by rw [hp]; rfl) (by rw [hp]; rfl) (by rw [hp]; rfl) (by rw [hp]; rfl) (by rintro (e | e) <;> cases e)
    · cases hn
  · next hp =>
    cases hn
    have hs : s.started = true := by
      have h1 := h.started
      have h2 : 0 < s.runs.countP (fun r => r.pc.running) := List.countP_pos_iff.2 ⟨r, List.mem_of_getElem? hr, by rw [hp]; rfl⟩
      cases hs : s.started with
      | false => rw [hs, if_neg (by decide)] at h1; omega
      | true => rfl
    refine h.run hr rfl rfl rfl (.inl ⟨rfl, by rw [hp]; rfl⟩) ?_ (by rw [hp]; rfl) (by rw [hp]; rfl) (by rw [hp]; rfl) (by rintro (e | e) <;> cases e)
    rw [hp, hs]; rfl
  · next hp =>
    split at hn
    · next s1 e =>
      cases hn
      unfold wgDone at e
      split at e <;> cases e
      · next e0 =>
        refine Inv.run (s := { s with api := fun j => (s.api j).wakeWg }) h.wakeWg hr rfl rfl rfl (.inl ⟨rfl, by rw [hp]; rfl⟩) (by rw [hp]; rfl) ?_ (by rw [hp]; rfl) (by rw [hp]; rfl) (by rintro (e | e) <;> cases e)
        rw [hp]; simp [setRun, RunPc.inWg, e0]
      · next e0 =>
        refine Inv.run h hr rfl rfl rfl (.inl ⟨rfl, by rw [hp]; rfl⟩) (by rw [hp]; rfl) ?_ (by rw [hp]; rfl) (by rw [hp]; rfl) (by rintro (e | e) <;> cases e)
        rw [hp]; simp [setRun, RunPc.inWg, e0]
    · next hx => exact absurd hn (hx s')
  · cases hn

theorem connStep_inv {s s' : Sys} (h : s.Inv) {c : Nat} (hn : s.connStep c = .ok s') : s'.Inv := by
  unfold connStep at hn
  split at hn
  · cases hn
  next k hk =>
  dsimp only at hn
  split at hn
  · next hp =>
    cases hn
    exact h.conn hk rfl rfl rfl rfl (.inl ⟨rfl, by rw [hp]; rfl⟩) rfl (by rw [hp]; rfl) (by rw [hp]; rfl) rfl (fun _ => .inl rfl)
  · cases hn
  · cases hn
  · next hp =>
    unfold lockMu at hn
    split at hn
    · next hm =>
      cases hn
      exact h.conn hk rfl rfl rfl rfl (.inr (.inl ⟨hm, rfl, rfl⟩)) rfl (by rw [hp]; rfl) (by rw [hp]; rfl) rfl (fun _ => .inr hm)
    · cases hn
  · next hp =>
    split at hn
    · cases hn
      exact h.conn hk rfl rfl rfl rfl (.inl ⟨rfl, by rw [hp]; rfl⟩) rfl (by rw [hp]; rfl) (by rw [hp]; rfl) rfl (by rw [hp]; intro e; cases e)
    · cases hn
  · next hp =>
    split at hn
    · next s1 e =>
      cases hn
      unfold activeDone at e
      split at e <;> cases e
      next e0 =>
      refine h.conn hk rfl rfl rfl rfl (.inl ⟨rfl, by rw [hp]; rfl⟩) rfl (by rw [hp]; rfl) ?_ rfl (by rw [hp]; intro e; cases e)
      rw [hp]; simp [setConn, ConnPc.inActive, e0]
    · next hx => exact absurd hn (hx s')
  · next hp =>
    split at hn
    · next s1 e =>
      cases hn
      unfold wgDone at e
      split at e <;> cases e
      · next e0 =>
        refine Inv.conn (s := { s with api := fun j => (s.api j).wakeWg }) h.wakeWg hk rfl rfl rfl rfl (.inl ⟨rfl, by rw [hp]; rfl⟩) rfl ?_ (by rw [hp]; rfl) rfl (by rw [hp]; intro e; cases e)
        rw [hp]; simp [setConn, ConnPc.inWg, e0]
      · next e0 =>
        refine Inv.conn h hk rfl rfl rfl rfl (.inl ⟨rfl, by rw [hp]; rfl⟩) rfl ?_ (by rw [hp]; rfl) rfl (by rw [hp]; intro e; cases e)
        rw [hp]; simp [setConn, ConnPc.inWg, e0]
    · next hx => exact absurd hn (hx s')
  · next hp =>
    cases hn
    exact h.conn hk rfl rfl rfl rfl (.inr (.inr ⟨by rw [hp]; rfl, rfl, rfl⟩)) rfl (by rw [hp]; rfl) (by rw [hp]; rfl) rfl (by rw [hp]; intro e; cases e)
  · cases hn

theorem next_inv {s s' : Sys} (h : s.Inv) {c : Choice} (hn : s.next c = .ok s') : s'.Inv := by
  cases c with
  | api i c => exact apiStep_inv h hn
  | run g ok => exact runStep_inv h hn
  | conn c => exact connStep_inv h hn
  | parentCancel =>
    cases hn
    exact h.congr rfl rfl rfl rfl rfl rfl rfl rfl

theorem Step.inv {s s' : Sys} {e : SEv} (hs : Step s e s') (h : s.Inv) : s'.Inv := by
  cases hs with
  | life hn => exact next_inv h hn
  | conn hc hp ha => exact h.conn hc rfl rfl rfl rfl (.inl ⟨rfl, by rw [hp]; rfl⟩) rfl (by rw [hp]; rfl) (by rw [hp]; rfl) rfl (fun _ => .inl rfl)
  | unroll hc hp => exact h.conn hc rfl rfl rfl rfl (.inl ⟨rfl, by rw [hp]; rfl⟩) rfl (by rw [hp]; rfl) (by rw [hp]; rfl) rfl (fun _ => .inl rfl)
  | call hp ha => exact h.apiFree (fun j => rfl) (by rw [hp]; rfl) rfl rfl rfl rfl rfl rfl rfl rfl
  | tick d => exact h.congr rfl rfl rfl rfl rfl rfl rfl rfl

theorem Run.inv {s s' : Sys} {tr : List SEv} (hr : Run s tr s') (h : s.Inv) : s'.Inv := by
  induction hr with
  | nil => exact h
  | cons hs _ ih => exact ih (hs.inv h)

theorem Reachable.inv {s : Sys} (h : s.Reachable) : s.Inv := by
  obtain ⟨sv, clock, tr, hr⟩ := h
  exact hr.inv (inv_new sv clock)

end Sys
end KM
