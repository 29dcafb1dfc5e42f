import Verif.System
/-
Endless runs of the mock with a fair scheduler, and what they bring about.
-/
namespace KM
open Props

/-- A goroutine: a caller of exported functions, an accept loop, a connection. -/
abbrev Goroutine := Holder

/-- The goroutine that made a step. -/
def SEv.of : SEv → Option Goroutine
  | .life (.api i _) => some (.api i)
  | .life (.run g _) => some (.run g)
  | .life (.conn c) => some (.conn c)
  | .life .parentCancel => none
  | .conn c _ _ => some (.conn c)
  | .unroll c => some (.conn c)
  | .call i _ _ => some (.api i)
  | .tick _ => none

/-- A caller that is in an exported function and does not wait for another goroutine. -/
def ApiPc.ready (s : Sys) : ApiPc → Prop
  | .idle => False
  | .panicked _ => False
  | .start .lock _ => s.mu = none
  | .stop .lock _ => s.mu = none
  | .stop (.init .asleep) _ => False
  | .wait .asleep _ => False
  | .restartInit .asleep => False
  | _ => True

/-- An accept loop that does not wait: for a connection, for `km.mu`, for its connections to end. -/
def RunPc.ready (s : Sys) (g : Nat) : RunPc → Prop
  | .accept => g ∈ s.closes
  | .lock => s.mu = none
  | .waitActive => s.active = 0
  | .ended => False
  | _ => True

/-- A connection that does not wait for `km.mu`. A read does not count as waiting, it has a deadline (/repo/kafka-client.go:104). -/
def ConnPc.ready (s : Sys) : ConnPc → Prop
  | .oc .lock => s.mu = none
  | .ended => False
  | _ => True

/-- The goroutine exists, has something to do and does not wait for another one. -/
def Sys.ready (s : Sys) : Goroutine → Prop
  | .api i => (s.api i).ready s
  | .run g => ∃ r, s.runs[g]? = some r ∧ r.pc.ready s g
  | .conn c => ∃ k, s.conns[c]? = some k ∧ k.pc.ready s

/-- An endless run of the mock with a fair scheduler: a goroutine that is ready again and again acts again and again. (Time may pass, so every run can be
continued for ever. A goroutine about to panic is ready and cannot act: a run that is about to crash is not part of an endless one.) The scheduler is fair to the goroutines in `F`; to all
unless `F` is given. -/
structure Endless (sv : Server) (clock : Int) (ss : Nat → Sys) (es : Nat → SEv) (F : Goroutine → Prop := fun _ => True) : Prop where
  first : ss 0 = Sys.new sv clock
  step : ∀ n, Sys.Step (ss n) (es n) (ss (n + 1))
  fair : ∀ t, F t → (∀ n, ∃ m, n ≤ m ∧ (ss m).ready t) → ∀ n, ∃ m, n ≤ m ∧ (es m).of = some t

/-! ### The steps of one goroutine -/

theorem step_run_other {s s' : Sys} {e : SEv} (h : Sys.Step s e s') {g : Nat} {r : RunG} (hg : s.runs[g]? = some r) (he : e.of ≠ some (.run g)) :
    s'.runs[g]? = some r := by
  have hlt := (List.getElem?_eq_some_iff.1 hg).1
  cases h with
  | @life _ c hn =>
    cases c with
    | api i c =>
      rcases apiStep_runs hn with h | h <;> rw [h]
      · exact hg
      · rw [List.getElem?_append_left hlt]; exact hg
    | run g' ok =>
      obtain ⟨r1, r2, _, _, h⟩ := runStep_runs hn
      rw [h, List.getElem?_set_ne]
      · exact hg
      · rintro rfl; exact he rfl
    | conn c => rw [connStep_runs hn]; exact hg
    | parentCancel => cases hn; exact hg
  | _ => exact hg

theorem step_conn_other {s s' : Sys} {e : SEv} (h : Sys.Step s e s') {c : Nat} {k : ConnG} (hc : s.conns[c]? = some k) (he : e.of ≠ some (.conn c)) :
    s'.conns[c]? = some k := by
  have hlt := (List.getElem?_eq_some_iff.1 hc).1
  have set : ∀ {c' : Nat} {k' : ConnG}, c' ≠ c → (s.conns.set c' k')[c]? = some k := fun h => by rw [List.getElem?_set_ne h]; exact hc
  cases h with
  | @life _ ch hn =>
    cases ch with
    | api i c => rw [apiStep_conns hn]; exact hc
    | run g ok =>
      rcases runStep_conns hn with e | ⟨r, _, _, e⟩ <;> rw [e]
      · exact hc
      · rw [List.getElem?_append_left hlt]; exact hc
    | conn c' =>
      obtain ⟨_, _, _, h, _⟩ := connStep_conns hn
      rw [h]
      exact set fun e => he (by rw [e]; rfl)
    | parentCancel => cases hn; exact hc
  | @conn c' => exact set (fun e => he (by rw [e]; rfl))
  | @unroll c' => exact set (fun e => he (by rw [e]; rfl))
  | _ => exact hc

theorem step_api_other {s s' : Sys} {e : SEv} (h : Sys.Step s e s') {i : Nat} (he : e.of ≠ some (.api i)) : Woken (s.api i) (s'.api i) := by
  refine step_other h fun h => he ?_
  cases e with
  | life c => cases c <;> first | (cases h; rfl) | cases h
  | call => cases h; rfl
  | _ => cases h

/-- The next line of the close callback. -/
def OcPc.next : OcPc → ConnPc
  | .lock => .oc .delete
  | .delete => .oc .active
  | .active => .oc .wg
  | .wg => .oc .unlock
  | .unlock => .ended

/-- A step of a connection. -/
inductive ConnStep (s s' : Sys) (c : Nat) (k : ConnG) (e : SEv) : Prop where
  | act {a : Act} {f : a.Resp → Prog Unit} {r : a.Resp} {w : World} (hp : k.pc = .body (.act a f)) (he : e = .conn c a r)
      (ha : a.step (s.view k.ctx) r w) (hk : s'.conns[c]? = some { k with pc := .body (f r) })
  | loop {σ β : Type} {x : σ} {body : σ → Prog (σ ⊕ β)} {f : β → Prog Unit} (hp : k.pc = .body (.loop x body f))
      (hk : s'.conns[c]? = some { k with pc := .body (Prog.unroll x body f) })
  | ret (hp : k.pc = .body (.ret ())) (hk : s'.conns[c]? = some { k with pc := .oc .lock })
  | oc {o : OcPc} (hp : k.pc = .oc o) (hk : s'.conns[c]? = some { k with pc := o.next })

theorem step_conn_self {s s' : Sys} {e : SEv} (h : Sys.Step s e s') {c : Nat} (he : e.of = some (.conn c)) :
    ∃ k, s.conns[c]? = some k ∧ ConnStep s s' c k e := by
  have self : ∀ {l : List ConnG} {k k' : ConnG}, l = s.conns → s.conns[c]? = some k → (l.set c k')[c]? = some k' := fun e h => by
    rw [e]; exact List.getElem?_set_self (List.getElem?_eq_some_iff.1 h).1
  cases h with
  | @life _ ch hn =>
    cases ch with
    | api => cases he
    | run => cases he
    | parentCancel => cases he
    | conn c' =>
      cases he
      simp only [Sys.next] at hn
      unfold Sys.connStep at hn
      split at hn
      · cases hn
      next k hk =>
      refine ⟨k, hk, ?_⟩
      split at hn
      · next hp => cases hn; exact .ret hp (self rfl hk)
      · cases hn
      · cases hn
      · next hp => unfold Sys.lockMu at hn; split at hn <;> cases hn; exact .oc hp (self rfl hk)
      · next hp => split at hn <;> cases hn; exact .oc hp (self rfl hk)
      · next hp =>
        cases he : s.activeDone <;> rw [he] at hn <;> cases hn
        exact .oc hp (self (activeDone_same he).1 hk)
      · next hp =>
        cases he : s.wgDone <;> rw [he] at hn <;> cases hn
        exact .oc hp (self (wgDone_same he).1 hk)
      · next hp => cases hn; exact .oc hp (self rfl hk)
      · cases hn
  | @conn c' k a f r w hc hp ha => cases he; exact ⟨k, hc, .act hp rfl ha (self rfl hc)⟩
  | @unroll c' k _ _ _ _ _ hc hp => cases he; exact ⟨k, hc, .loop hp (self rfl hc)⟩
  | call => cases he
  | tick => cases he

/-- How far an accept loop is from its end, once its listener is closed. -/
def RunPc.rank : RunPc → Nat
  | .ended => 0
  | .wgDone => 1
  | .storeStarted => 2
  | .waitActive => 3
  | .accept => 4
  | .unlock => 5
  | .addWg => 6
  | .addActive => 7
  | .register => 8
  | .lock => 9
  | .select => 10
  | .initDone => 11
  | .setListener => 12
  | .listen => 13

theorem step_run_self {s s' : Sys} {e : SEv} (h : Sys.Step s e s') {g : Nat} (he : e.of = some (.run g)) :
    ∃ r r', s.runs[g]? = some r ∧ RunNext r r' ∧ s'.runs[g]? = some r' ∧ (g ∈ s.closes → r'.pc.rank < r.pc.rank) := by
  cases h with
  | @life _ ch hn =>
    cases ch with
    | api => cases he
    | conn => cases he
    | parentCancel => cases he
    | run g' ok =>
      cases he
      obtain ⟨r, r', h1, h2, h3⟩ := runStep_runs hn
      have h4 : s'.runs[g]? = some r' := by rw [h3]; exact List.getElem?_set_self (List.getElem?_eq_some_iff.1 h1).1
      refine ⟨r, r', h1, h2, h4, fun hc => ?_⟩
      by_cases ha : r.pc = .accept
      · have : r' = { r with pc := .waitActive } := by
          simp only [Sys.next, Sys.runStep, h1, ha, if_pos (List.contains_iff_mem.2 hc), Out.ok.injEq] at hn
          rw [← hn] at h4
          have := List.getElem?_set_self (a := ({ r with pc := .waitActive } : RunG)) (List.getElem?_eq_some_iff.1 h1).1
          have h5 : (s.setRun g { r with pc := .waitActive }).runs[g]? = some { r with pc := .waitActive } := this
          rw [h5] at h4
          exact (Option.some.inj h4).symm
        rw [this, ha]; show 3 < 4; decide
      · obtain ⟨h2, _⟩ := h2
        cases hp : r.pc <;> rw [hp] at h2 ha <;> simp only [RunPc.next, List.mem_cons, List.not_mem_nil, or_false] at h2 <;> try exact absurd rfl ha
        all_goals first
          | (rw [h2]; decide)
          | (rcases h2 with h2 | h2 <;> rw [h2] <;> decide)
  | conn => cases he
  | unroll => cases he
  | call => cases he
  | tick => cases he

theorem step_by_run {s s' : Sys} {e : SEv} (h : Sys.Step s e s') {g : Nat} (he : e.of = some (.run g)) : ∃ ok, s.runStep g ok = .ok s' := by
  cases h with
  | @life _ ch hn =>
    cases ch with
    | run g' ok => cases he; exact ⟨ok, hn⟩
    | api => cases he
    | conn => cases he
    | parentCancel => cases he
  | conn => cases he
  | unroll => cases he
  | call => cases he
  | tick => cases he

theorem step_by_conn {s s' : Sys} {e : SEv} (h : Sys.Step s e s') {c : Nat} (he : e.of = some (.conn c)) :
    s.connStep c = .ok s' ∨ ∃ k p, s.conns[c]? = some k ∧ k.pc = .body p := by
  cases h with
  | @life _ ch hn =>
    cases ch with
    | conn c' => cases he; exact .inl hn
    | api => cases he
    | run => cases he
    | parentCancel => cases he
  | @conn c' k a f r w hc hp ha => cases he; exact .inr ⟨_, _, hc, hp⟩
  | @unroll c' k _ _ _ _ _ hc hp' => cases he; exact .inr ⟨_, _, hc, hp'⟩
  | call => cases he
  | tick => cases he

theorem step_by_api {s s' : Sys} {e : SEv} (h : Sys.Step s e s') {i : Nat} (he : e.of = some (.api i)) :
    (∃ c, s.apiStep i c = .ok s') ∨ ∃ (a : Act) (f : a.Resp → Prog Unit) (r : a.Resp) (w : World), s.api i = .call (.act a f) ∧ a.step (s.view 0) r w ∧
      s' = ({ s with ds := w.ds, clock := w.clock } : Sys).setApi i (.call (f r)) := by
  cases h with
  | @life _ ch hn =>
    cases ch with
    | api i' c => cases he; exact .inl ⟨c, hn⟩
    | conn => cases he
    | run => cases he
    | parentCancel => cases he
  | conn => cases he
  | unroll => cases he
  | @call j a f r w hp ha => cases he; exact .inr ⟨a, f, r, w, hp, ha, rfl⟩
  | tick => cases he

/-! ### Between the steps of a goroutine -/

variable {sv : Server} {clock : Int} {ss : Nat → Sys} {es : Nat → SEv}

theorem Endless.run (h : Endless sv clock ss es F) {n m : Nat} (hnm : n ≤ m) : ∃ tr, Sys.Run (ss n) tr (ss m) := by
  induction hnm with
  | refl => exact ⟨[], .nil _⟩
  | @step m _ ih =>
    obtain ⟨tr, hr⟩ := ih
    exact ⟨tr ++ [es m], hr.append (.cons (h.step m) (.nil _))⟩

theorem Endless.reach (h : Endless sv clock ss es F) (n : Nat) : ∃ tr, Sys.Run (Sys.new sv clock) tr (ss n) := by
  obtain ⟨tr, hr⟩ := h.run (Nat.zero_le n)
  exact ⟨tr, h.first ▸ hr⟩

theorem Endless.whole (h : Endless sv clock ss es F) (n : Nat) : (ss n).Inv ∧ Attended (ss n) ∧ CtxInv (ss n) := by
  obtain ⟨tr, hr⟩ := h.reach n
  exact hr.whole

theorem Endless.run_stays (h : Endless sv clock ss es F) {n m g : Nat} {r : RunG} (hnm : n ≤ m) (hg : (ss n).runs[g]? = some r)
    (hno : ∀ j, n ≤ j → j < m → (es j).of ≠ some (.run g)) : (ss m).runs[g]? = some r := by
  induction hnm with
  | refl => exact hg
  | @step m hle ih => exact step_run_other (h.step m) (ih fun j h1 h2 => hno j h1 (by omega)) (hno m hle (by omega))

theorem Endless.conn_stays (h : Endless sv clock ss es F) {n m c : Nat} {k : ConnG} (hnm : n ≤ m) (hc : (ss n).conns[c]? = some k)
    (hno : ∀ j, n ≤ j → j < m → (es j).of ≠ some (.conn c)) : (ss m).conns[c]? = some k := by
  induction hnm with
  | refl => exact hc
  | @step m hle ih => exact step_conn_other (h.step m) (ih fun j h1 h2 => hno j h1 (by omega)) (hno m hle (by omega))

/-- A goroutine that is ready again and again until it acts, acts; its first action. -/
theorem Endless.first_act (h : Endless sv clock ss es F) (t : Goroutine) (n : Nat)
    (hr : (∀ m, n ≤ m → (es m).of ≠ some t) → ∀ m, n ≤ m → ∃ m', m ≤ m' ∧ (ss m').ready t) (hF : F t := by first | exact trivial | assumption) :
    ∃ m, n ≤ m ∧ (es m).of = some t ∧ ∀ j, n ≤ j → j < m → (es j).of ≠ some t := by
  have ex : ∃ m, n ≤ m ∧ (es m).of = some t := by
    refine Classical.byContradiction fun hno => ?_
    have hno : ∀ m, n ≤ m → (es m).of ≠ some t := fun m h1 h2 => hno ⟨m, h1, h2⟩
    refine absurd (h.fair t hF (fun m => ?_) n) fun ⟨m, h1, h2⟩ => hno m h1 h2
    obtain ⟨m', h1, h2⟩ := hr hno (max n m) (Nat.le_max_left ..)
    exact ⟨m', Nat.le_trans (Nat.le_max_right ..) h1, h2⟩
  obtain ⟨m, h1, h2⟩ := ex
  induction m using Nat.strongRecOn with
  | ind m ih =>
    by_cases hx : ∃ j, n ≤ j ∧ j < m ∧ (es j).of = some t
    · obtain ⟨j, a, b, c⟩ := hx
      exact ih j b a c
    · exact ⟨m, h1, h2, fun j a b c => hx ⟨j, a, b, c⟩⟩

/-! ### `km.mu` is released -/

/-- How many steps the holder of `km.mu` makes until it unlocks it. -/
def ApiPc.hold : ApiPc → Nat
  | .start .swap _ => 8
  | .start .reset _ => 7
  | .start .unstop _ => 6
  | .start .derive _ => 5
  | .start .addWg _ => 4
  | .start .addInit _ => 3
  | .start .spawn _ => 2
  | .stop .close _ => 2
  | _ => 1

def RunPc.hold : RunPc → Nat
  | .register => 4
  | .addActive => 3
  | .addWg => 2
  | _ => 1

def OcPc.hold : OcPc → Nat
  | .delete => 4
  | .active => 3
  | .wg => 2
  | _ => 1

theorem Woken.locked {pc pc' : ApiPc} (h : Woken pc pc') (hl : pc.locked = true) : pc' = pc := by
  cases h with
  | not => rfl
  | wg => unfold ApiPc.wakeWg; split <;> first | rfl | cases hl
  | init => unfold ApiPc.wakeInit; split <;> first | rfl | cases hl

theorem apiStep_hold {s s' : Sys} {i : Nat} {c : Call} (hn : s.apiStep i c = .ok s') (hl : (s.api i).locked = true) :
    s'.mu = none ∨ ((s'.api i).locked = true ∧ (s'.api i).hold < (s.api i).hold) := by
  have self : ∀ (t : Sys) (pc : ApiPc), (t.setApi i pc).api i = pc := fun t pc => if_pos rfl
  unfold Sys.apiStep at hn
  cases hp : s.api i with
  | start k r =>
    rw [hp] at hn hl
    cases k
    case lock => cases hl
    all_goals
      simp only [Sys.startStep] at hn
      (try split at hn) <;> cases hn
      all_goals first
        | exact .inl rfl
        | (rw [self]; exact .inr ⟨rfl, by simp [ApiPc.hold]⟩)
  | stop k b =>
    rw [hp] at hn hl
    cases k
    case close =>
      simp only [Sys.stopStep] at hn
      split at hn <;> cases hn <;> (rw [self]; exact .inr ⟨rfl, by simp [ApiPc.hold]⟩)
    case unlock => cases hn; exact .inl rfl
    all_goals cases hl
  | _ => rw [hp] at hl; cases hl

/-- The scheduler is fair to callers and to accept loops, and to connections that have left their loop. -/
structure Lively (F : Goroutine → Prop) (ss : Nat → Sys) : Prop where
  api : ∀ i, F (.api i)
  run : ∀ g, F (.run g)
  left : ∀ n c k o, (ss n).conns[c]? = some k → k.pc = .oc o → F (.conn c)

theorem Lively.all : Lively (fun _ => True) ss := ⟨fun _ => trivial, fun _ => trivial, fun _ _ _ _ _ _ => trivial⟩

/-- `km.mu` is free again and again. -/
theorem Endless.mu_free (h : Endless sv clock ss es F) (n : Nat) (hL : Lively F ss := by first | exact .all | assumption) : ∃ m, n ≤ m ∧ (ss m).mu = none := by
  have holder : ∀ (m : Nat) (t : Holder), (ss m).mu = some t ↔ (ss m).holds t = true := fun m t => ((h.whole m).1.mu t).symm
  have api : ∀ (b n i : Nat), (ss n).mu = some (.api i) → ((ss n).api i).hold ≤ b → ∃ m, n ≤ m ∧ (ss m).mu = none := by
    intro b
    induction b with
    | zero =>
      intro n i _ h2
      exfalso
      revert h2
      generalize (ss n).api i = pc
      cases pc with
      | start k r => cases k <;> simp [ApiPc.hold]
      | stop k r => cases k <;> simp [ApiPc.hold]
      | _ => simp [ApiPc.hold]
    | succ b ih =>
      intro n i h1 h2
      have hl : ((ss n).api i).locked = true := (holder n _).1 h1
      have stays : ∀ m, n ≤ m → (∀ j, n ≤ j → j < m → (es j).of ≠ some (.api i)) → (ss m).api i = (ss n).api i := by
        intro m hnm
        induction hnm with
        | refl => intro _; rfl
        | @step m hle ih =>
          intro hno
          have e := ih fun j h1 h2 => hno j h1 (by omega)
          rw [← e]
          exact (step_api_other (h.step m) (hno m hle (by omega))).locked (by rw [e]; exact hl)
      obtain ⟨m, m1, m2, m3⟩ := h.first_act (.api i) n (hF := hL.api i) fun hno m hm => ⟨m, Nat.le_refl _, by
        have e := stays m hm fun j h1 _ => hno j h1
        show ((ss m).api i).ready (ss m)
        rw [e]
        revert hl
        generalize (ss n).api i = pc
        intro hl
        cases pc with
        | start k r => cases k <;> first | (cases hl; done) | trivial
        | stop k r => cases k <;> first | (cases hl; done) | trivial
        | _ => cases hl⟩
      have e := stays m m1 m3
      have hl' : ((ss m).api i).locked = true := by rw [e]; exact hl
      have key : (ss (m + 1)).mu = none ∨ (((ss (m + 1)).api i).locked = true ∧ ((ss (m + 1)).api i).hold < ((ss m).api i).hold) := by
        rcases step_by_api (h.step m) m2 with ⟨c, hn⟩ | ⟨a, f, r, w, hp, _⟩
        · exact apiStep_hold hn hl'
        · rw [hp] at hl'; cases hl'
      rcases key with key | ⟨k1, k2⟩
      · exact ⟨m + 1, by omega, key⟩
      · rw [e] at k2
        obtain ⟨m', a, b⟩ := ih (m + 1) i ((holder _ _).2 k1) (by omega)
        exact ⟨m', by omega, b⟩
  have run : ∀ (b n g : Nat) (r : RunG), (ss n).runs[g]? = some r → r.pc.locked = true → r.pc.hold ≤ b → ∃ m, n ≤ m ∧ (ss m).mu = none := by
    intro b
    induction b with
    | zero => intro n g r _ _ h3; cases hp : r.pc <;> rw [hp] at h3 <;> simp [RunPc.hold] at h3
    | succ b ih =>
      intro n g r h1 h2 h3
      obtain ⟨m, m1, m2, m3⟩ := h.first_act (.run g) n (hF := hL.run g) fun hno m hm => ⟨m, Nat.le_refl _, r, h.run_stays hm h1 fun j h1 _ => hno j h1, by
        cases hp : r.pc <;> rw [hp] at h2 <;> first | (cases h2; done) | trivial⟩
      have e := h.run_stays m1 h1 m3
      obtain ⟨r0, r', a1, a2, a3, _⟩ := step_run_self (h.step m) m2
      rw [e] at a1; cases a1
      cases hl : r'.pc.locked with
      | true =>
        obtain ⟨m', b1, b2⟩ := ih (m + 1) g r' a3 hl (by
          obtain ⟨a2, _⟩ := a2
          cases hp : r.pc <;> rw [hp] at h2 a2 h3 <;> simp only [RunPc.next, List.mem_cons, List.not_mem_nil, or_false] at a2 <;>
            first | (cases h2; done) | skip
          all_goals rw [a2] at hl ⊢
          all_goals first | (cases hl; done) | (simp only [RunPc.hold] at h3 ⊢; omega))
        exact ⟨m', by omega, b2⟩
      | false =>
        refine ⟨m + 1, by omega, ?_⟩
        have hmu : (ss m).mu = some (.run g) := (holder _ _).2 (by simp [Sys.holds, e, h2])
        obtain ⟨a2, _⟩ := a2
        have hpc : r.pc = .unlock := by
          cases hp : r.pc <;> rw [hp] at h2 a2 <;> simp only [RunPc.next, List.mem_cons, List.not_mem_nil, or_false] at a2 <;>
            first | (cases h2; done) | rfl | (rw [a2] at hl; cases hl)
        obtain ⟨ok, hn⟩ := step_by_run (h.step m) m2
        simp only [Sys.runStep, e, hpc, Out.ok.injEq] at hn
        rw [← hn]; rfl
  have conn : ∀ (b n c : Nat) (k : ConnG) (o : OcPc), (ss n).conns[c]? = some k → k.pc = .oc o → o ≠ .lock → o.hold ≤ b → ∃ m, n ≤ m ∧ (ss m).mu = none := by
    intro b
    induction b with
    | zero => intro n c k o _ _ _ h3; cases o <;> simp [OcPc.hold] at h3
    | succ b ih =>
      intro n c k o h1 h2 h3 h4
      obtain ⟨m, m1, m2, m3⟩ := h.first_act (.conn c) n (hF := hL.left n c k o h1 h2) fun hno m hm => ⟨m, Nat.le_refl _, k, h.conn_stays hm h1 fun j h1 _ => hno j h1, by
        rw [h2]; cases o <;> first | (exact absurd rfl h3) | trivial⟩
      have e := h.conn_stays m1 h1 m3
      obtain ⟨k0, a1, a2⟩ := step_conn_self (h.step m) m2
      rw [e] at a1; cases a1
      cases a2 with
      | act hp => rw [h2] at hp; cases hp
      | loop hp => rw [h2] at hp; cases hp
      | ret hp => rw [h2] at hp; cases hp
      | @oc o' hp hk =>
        rw [h2] at hp; cases hp
        by_cases hu : o = .unlock
        · subst hu
          refine ⟨m + 1, by omega, ?_⟩
          rcases step_by_conn (h.step m) m2 with hn | ⟨k', p, hc, hp'⟩
          · simp only [Sys.connStep, e, h2, Out.ok.injEq] at hn
            rw [← hn]; rfl
          · rw [e] at hc; cases hc; rw [h2] at hp'; cases hp'
        · cases o with
          | unlock => exact absurd rfl hu
          | lock => exact absurd rfl h3
          | _ =>
            obtain ⟨m', b1, b2⟩ := ih (m + 1) c _ _ hk rfl (by intro h; cases h) (by simp only [OcPc.hold] at h4 ⊢; omega)
            exact ⟨m', by omega, b2⟩
  cases hm : (ss n).mu with
  | none => exact ⟨n, Nat.le_refl _, hm⟩
  | some t =>
    cases t with
    | api i => exact api _ n i hm (Nat.le_refl _)
    | run g =>
      have hh := (holder n _).1 hm
      simp only [Sys.holds] at hh
      cases hr : (ss n).runs[g]? with
      | none => rw [hr] at hh; cases hh
      | some r => rw [hr] at hh; exact run _ n g r hr hh (Nat.le_refl _)
    | conn c =>
      have hh := (holder n _).1 hm
      simp only [Sys.holds] at hh
      cases hr : (ss n).conns[c]? with
      | none => rw [hr] at hh; cases hh
      | some k =>
        rw [hr] at hh
        have hh : k.pc.locked = true := hh
        cases hp : k.pc with
        | oc o => exact conn _ n c k o hr hp (by rintro rfl; rw [hp] at hh; cases hh) (Nat.le_refl _)
        | body => rw [hp] at hh; cases hh
        | ended => rw [hp] at hh; cases hh

end KM
