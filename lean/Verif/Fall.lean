import Verif.FairEnds
/-
The mock after a panic in one of its own goroutines. Go runs the deferred functions of the goroutine before it ends the process; meanwhile all other goroutines
go on.
-/
namespace KM
open Props

/-- The mock, and those of its goroutines that have panicked. -/
structure Fall where
  sys : Sys
  dying : List Goroutine

/-- What happens: a step of the mock, or a panic. -/
inductive FallEv where
  | sys (e : SEv)
  | panic (t : Goroutine)

/-- The goroutine that made the step. -/
def FallEv.of : FallEv → Option Goroutine
  | .sys e => e.of
  | .panic t => some t

/-- One step. A connection that panics runs the deferred function of /repo/kafka-client.go:79-83, like one that returns (`kc.wg.Done()` and `kc.connected.Done()`
concern wait groups nobody waits on). An accept loop whose `Accept` fails on an open listener (/repo/kafka-mock.go:131-133) runs the deferred function of lines 109-113, like one that
returns. After a failed `net.Listen` (lines 118-120) that function does not wait, as no connection is left (`Fall.Run.listen_alone`): this panic is taken to end
the process at once. -/
inductive Fall.Step : Fall → FallEv → Fall → Prop where
  | sys {F : Fall} {e : SEv} {s : Sys} (h : Sys.Step F.sys e s) : Step F (.sys e) ⟨s, F.dying⟩
  | conn {F : Fall} {c : Nat} {k : ConnG} (hk : F.sys.conns[c]? = some k) (hp : k.pc = .body .panic) :
      Step F (.panic (.conn c)) ⟨F.sys.setConn c { k with pc := .oc .lock }, .conn c :: F.dying⟩
  | accept {F : Fall} {g : Nat} {r : RunG} (hr : F.sys.runs[g]? = some r) (hp : r.pc = .accept) (hc : g ∉ F.sys.closes) :
      Step F (.panic (.run g)) ⟨F.sys.setRun g { r with pc := .waitActive }, .run g :: F.dying⟩

inductive Fall.Run : Fall → List FallEv → Fall → Prop where
  | nil (F : Fall) : Run F [] F
  | cons {F F1 F2 : Fall} {e : FallEv} {es : List FallEv} (h : Step F e F1) (hs : Run F1 es F2) : Run F (e :: es) F2

theorem Fall.Run.append {F F1 F2 : Fall} {a b : List FallEv} (h1 : Run F a F1) (h2 : Run F1 b F2) : Run F (a ++ b) F2 := by
  induction h1 with
  | nil => exact h2
  | cons h _ ih => exact .cons h (ih h2)

def Fall.new (sv : Server) (clock : Int) : Fall := ⟨Sys.new sv clock, []⟩

/-- The goroutine has run its deferred functions. -/
def Sys.over (s : Sys) : Goroutine → Prop
  | .api _ => False
  | .run g => ∃ r, s.runs[g]? = some r ∧ r.pc = .ended
  | .conn c => ∃ k, s.conns[c]? = some k ∧ k.pc = .ended

/-- Go ends the process: a goroutine that has panicked has run its deferred functions. -/
def Fall.over (F : Fall) : Prop := ∃ t ∈ F.dying, F.sys.over t

/-! ### Invariants -/

theorem Fall.Step.inv {F F' : Fall} {e : FallEv} (h : Fall.Step F e F') (hi : F.sys.Inv) : F'.sys.Inv := by
  cases h with
  | sys h => exact h.inv hi
  | conn hk hp => exact hi.conn hk rfl rfl rfl rfl (.inl ⟨rfl, by rw [hp]; rfl⟩) rfl (by rw [hp]; rfl) (by rw [hp]; rfl) rfl (fun _ => .inl rfl)
  | accept hr hp hc =>
    exact hi.run hr rfl rfl rfl (.inl ⟨rfl, by rw [hp]; rfl⟩) (by rw [hp]; rfl) (by rw [hp]; rfl) (by rw [hp]; rfl) (by rw [hp]; rfl) fun h => by rcases h with h | h <;> cases h

theorem fall_run_other {F F' : Fall} {e : FallEv} (h : Fall.Step F e F') {g : Nat} {r : RunG} (hg : F.sys.runs[g]? = some r) (he : e.of ≠ some (.run g)) :
    F'.sys.runs[g]? = some r := by
  cases h with
  | sys h => exact step_run_other h hg he
  | conn => exact hg
  | @accept g' _ _ _ _ =>
    show (F.sys.runs.set g' _)[g]? = _
    rw [List.getElem?_set_ne]
    · exact hg
    · rintro rfl; exact he rfl

theorem fall_conn_other {F F' : Fall} {e : FallEv} (h : Fall.Step F e F') {c : Nat} {k : ConnG} (hc : F.sys.conns[c]? = some k) (he : e.of ≠ some (.conn c)) :
    F'.sys.conns[c]? = some k := by
  cases h with
  | sys h => exact step_conn_other h hc he
  | @conn c' _ _ _ =>
    show (F.sys.conns.set c' _)[c]? = _
    rw [List.getElem?_set_ne]
    · exact hc
    · rintro rfl; exact he rfl
  | accept => exact hc

theorem fall_api_other {F F' : Fall} {e : FallEv} (h : Fall.Step F e F') {i : Nat} (he : e.of ≠ some (.api i)) : Woken (F.sys.api i) (F'.sys.api i) := by
  cases h with
  | sys h => exact step_api_other h he
  | conn => exact .not
  | accept => exact .not

/-- A step of a connection. -/
inductive FallConn (F F' : Fall) (c : Nat) (k : ConnG) : Prop where
  | sys {e : SEv} (h : Sys.Step F.sys e F'.sys) (he : e.of = some (.conn c)) (hd : F'.dying = F.dying)
  | panic (hp : k.pc = .body .panic) (hk : F'.sys.conns[c]? = some { k with pc := .oc .lock }) (hd : .conn c ∈ F'.dying)

theorem fall_conn_self {F F' : Fall} {e : FallEv} (h : Fall.Step F e F') {c : Nat} (he : e.of = some (.conn c)) {k : ConnG} (hk : F.sys.conns[c]? = some k) :
    FallConn F F' c k := by
  cases h with
  | sys h => exact .sys h he rfl
  | conn hk' hp =>
    cases he
    rw [hk] at hk'; cases hk'
    exact .panic hp (List.getElem?_set_self (List.getElem?_eq_some_iff.1 hk).1) List.mem_cons_self
  | accept => cases he

theorem fall_run_self {F F' : Fall} {e : FallEv} (h : Fall.Step F e F') {g : Nat} (he : e.of = some (.run g)) {r : RunG} (hr : F.sys.runs[g]? = some r) :
    (∃ e, Sys.Step F.sys e F'.sys ∧ e.of = some (.run g)) ∨ r.pc = .accept := by
  cases h with
  | sys h => exact .inl ⟨_, h, he⟩
  | conn hk' hp => cases he
  | accept hr' hp =>
    cases he
    rw [hr] at hr'; cases hr'
    exact .inr hp

theorem fall_dying {F F' : Fall} {e : FallEv} (h : Fall.Step F e F') {t : Goroutine} (ht : t ∈ F.dying) : t ∈ F'.dying := by
  cases h with
  | sys h => exact ht
  | conn => exact List.mem_cons_of_mem _ ht
  | accept => exact List.mem_cons_of_mem _ ht

/-- A goroutine that has panicked is in its deferred functions. -/
def Fall.Falling (F : Fall) : Prop :=
  (∀ c, .conn c ∈ F.dying → ∃ k, F.sys.conns[c]? = some k ∧ ((∃ o, k.pc = .oc o) ∨ k.pc = .ended)) ∧
  (∀ g, .run g ∈ F.dying → ∃ r, F.sys.runs[g]? = some r ∧ r.pc ∈ [.waitActive, .storeStarted, .wgDone, .ended]) ∧ ∀ i, .api i ∉ F.dying

theorem Fall.Step.falling {F F' : Fall} {e : FallEv} (h : Fall.Step F e F') (hf : F.Falling) : F'.Falling := by
  have hc : ∀ c, .conn c ∈ F.dying → ∃ k, F'.sys.conns[c]? = some k ∧ ((∃ o, k.pc = .oc o) ∨ k.pc = .ended) := by
    intro c hc
    obtain ⟨k, hk, hp⟩ := hf.1 c hc
    by_cases he : e.of = some (.conn c)
    · cases fall_conn_self h he hk with
      | sys hs he _ =>
        obtain ⟨k0, a1, a2⟩ := step_conn_self hs he
        rw [hk] at a1; cases a1
        cases a2 with
        | act hp' => rw [hp'] at hp; rcases hp with ⟨_, hp⟩ | hp <;> cases hp
        | loop hp' => rw [hp'] at hp; rcases hp with ⟨_, hp⟩ | hp <;> cases hp
        | ret hp' => rw [hp'] at hp; rcases hp with ⟨_, hp⟩ | hp <;> cases hp
        | @oc o hp' hk' =>
          refine ⟨_, hk', ?_⟩
          cases o <;> first | exact .inr rfl | exact .inl ⟨_, rfl⟩
      | panic hp' => rw [hp'] at hp; rcases hp with ⟨_, hp⟩ | hp <;> cases hp
    · exact ⟨k, fall_conn_other h hk he, hp⟩
  have hr : ∀ g, .run g ∈ F.dying → ∃ r, F'.sys.runs[g]? = some r ∧ r.pc ∈ [.waitActive, .storeStarted, .wgDone, .ended] := by
    intro g hg
    obtain ⟨r, hr, hp⟩ := hf.2.1 g hg
    by_cases he : e.of = some (.run g)
    · rcases fall_run_self h he hr with ⟨e, hs, he⟩ | hp'
      · obtain ⟨r0, r', a1, a2, a3, _⟩ := step_run_self hs he
        rw [hr] at a1; cases a1
        refine ⟨r', a3, ?_⟩
        obtain ⟨a2, _⟩ := a2
        revert hp a2
        cases r.pc <;> simp [RunPc.next] <;> intro h <;> simp [h]
      · rw [hp'] at hp; simp at hp
    · exact ⟨r, fall_run_other h hr he, hp⟩
  cases h with
  | sys h => exact ⟨hc, hr, hf.2.2⟩
  | @conn c k hk hp =>
    refine ⟨fun c' h => ?_, fun g h => ?_, fun i h => ?_⟩
    · rcases List.mem_cons.1 h with h | h
      · cases h
        exact ⟨_, List.getElem?_set_self (List.getElem?_eq_some_iff.1 hk).1, .inl ⟨_, rfl⟩⟩
      · exact hc c' h
    · rcases List.mem_cons.1 h with h | h
      · cases h
      · exact hr g h
    · rcases List.mem_cons.1 h with h | h
      · cases h
      · exact hf.2.2 i h
  | @accept g r hr' hp _ =>
    refine ⟨fun c' h => ?_, fun g h => ?_, fun i h => ?_⟩
    · rcases List.mem_cons.1 h with h | h
      · cases h
      · exact hc c' h
    · rcases List.mem_cons.1 h with h | h
      · cases h
        exact ⟨_, List.getElem?_set_self (List.getElem?_eq_some_iff.1 hr').1, by simp⟩
      · exact hr g h
    · rcases List.mem_cons.1 h with h | h
      · cases h
      · exact hf.2.2 i h

theorem Fall.new_inv (sv : Server) (clock : Int) : (Fall.new sv clock).sys.Inv ∧ (Fall.new sv clock).Falling :=
  ⟨Sys.inv_new sv clock, by simp [Falling, Fall.new]⟩

theorem Fall.Run.inv {F F' : Fall} {tr : List FallEv} (h : Fall.Run F tr F') (hi : F.sys.Inv) (hf : F.Falling) : F'.sys.Inv ∧ F'.Falling := by
  induction h with
  | nil => exact ⟨hi, hf⟩
  | cons h _ ih => exact ih (h.inv hi) (h.falling hf)

theorem Fall.Step.attended {F F' : Fall} {e : FallEv} (h : Fall.Step F e F') (hi : F.sys.Inv) (ha : Attended F.sys) : Attended F'.sys := by
  cases h with
  | sys h => exact step_attended h hi ha
  | @conn c k hk hp =>
    intro c' k' hk' hin
    by_cases e : c = c'
    · subst e
      have hk' : (F.sys.conns.set c { k with pc := .oc .lock })[c]? = some k' := hk'
      rw [List.getElem?_set_self (List.getElem?_eq_some_iff.1 hk).1] at hk'
      cases hk'
      exact ha c k hk (by rw [hp]; rfl)
    · have hk' : (F.sys.conns.set c { k with pc := .oc .lock })[c']? = some k' := hk'
      rw [List.getElem?_set_ne e] at hk'
      exact ha c' k' hk' hin
  | @accept g r hr hp _ =>
    intro c' k' hk' hin
    obtain ⟨r', h1, h2⟩ := ha c' k' hk' hin
    show ∃ r', (F.sys.runs.set g { r with pc := .waitActive })[k'.gen]? = some r' ∧ _
    by_cases e : g = k'.gen
    · rw [← e]
      exact ⟨_, List.getElem?_set_self (List.getElem?_eq_some_iff.1 hr).1, rfl⟩
    · exact ⟨r', by rw [List.getElem?_set_ne e]; exact h1, h2⟩

/-- Connections come from accept loops that have opened their socket. -/
def FromOpen (s : Sys) : Prop := ∀ (c : Nat) (k : ConnG), s.conns[c]? = some k → ∃ r, s.runs[k.gen]? = some r ∧ opened r.pc = true

theorem step_fromOpen {s s' : Sys} {e : SEv} (h : Sys.Step s e s') (hf : FromOpen s) : FromOpen s' := by
  have keep : ∀ g : Nat, (∃ r, s.runs[g]? = some r ∧ opened r.pc = true) → ∃ r, s'.runs[g]? = some r ∧ opened r.pc = true := by
    rintro g ⟨r, h1, h2⟩
    obtain ⟨r', h3, h4, _⟩ := step_keeps opened_next h h1 h2
    exact ⟨r', h3, h4⟩
  intro c k hk
  cases h.shape with
  | quiet hc => rw [hc] at hk; exact keep _ (hf c k hk)
  | reset _ _ _ hc => rw [hc] at hk; exact keep _ (hf c k hk)
  | loop _ _ _ _ _ _ _ hc => rw [hc] at hk; exact keep _ (hf c k hk)
  | register g r hg hp _ hc =>
    rw [hc] at hk
    rcases Nat.lt_or_ge c s.conns.length with hlt | hge
    · rw [List.getElem?_append_left hlt] at hk; exact keep _ (hf c k hk)
    · rw [List.getElem?_append_right hge] at hk
      obtain ⟨_, e⟩ := List.getElem?_eq_some_iff.1 hk
      have : k.gen = g := by rw [← e]; simp
      rw [this]
      exact keep _ ⟨r, hg, by rw [hp]; rfl⟩
  | conn _ _ _ hk0 _ _ hc =>
    rw [hc] at hk
    obtain ⟨k0, a, b, _⟩ := set_num hk0 hk
    rw [← b]; exact keep _ (hf _ k0 a)
  | delete _ _ _ hk0 _ _ hc =>
    rw [hc] at hk
    obtain ⟨k0, a, b, _⟩ := set_num hk0 hk
    rw [← b]; exact keep _ (hf _ k0 a)

theorem Fall.Step.fromOpen {F F' : Fall} {e : FallEv} (h : Fall.Step F e F') (hf : FromOpen F.sys) : FromOpen F'.sys := by
  cases h with
  | sys h => exact step_fromOpen h hf
  | conn hk0 hp =>
    intro c' k' hk
    obtain ⟨k0, a, b, _⟩ := set_num hk0 hk
    rw [← b]; exact hf _ k0 a
  | @accept g r hr hp _ =>
    intro c' k' hk'
    obtain ⟨r', h1, h2⟩ := hf c' k' hk'
    show ∃ r', (F.sys.runs.set g { r with pc := .waitActive })[k'.gen]? = some r' ∧ _
    by_cases e : g = k'.gen
    · rw [← e]
      exact ⟨_, List.getElem?_set_self (List.getElem?_eq_some_iff.1 hr).1, rfl⟩
    · exact ⟨r', by rw [List.getElem?_set_ne e]; exact h1, h2⟩

/-- When an accept loop opens its socket, no connection is left: its deferred function would not wait. -/
theorem Fall.Run.listen_alone {sv : Server} {clock : Int} {tr : List FallEv} {F : Fall} (h : Fall.Run (Fall.new sv clock) tr F) {g : Nat} {r : RunG}
    (hg : F.sys.runs[g]? = some r) (hp : r.pc = .listen) : F.sys.active = 0 := by
  have hi0 := Sys.inv_new sv clock
  have ha0 : Attended (Sys.new sv clock) := fun c k h => by simp [Sys.new] at h
  have hf0 : FromOpen (Sys.new sv clock) := fun c k h => by simp [Sys.new] at h
  have : F.sys.Inv ∧ Attended F.sys ∧ FromOpen F.sys := by
    change (Fall.new sv clock).sys.Inv at hi0
    change Attended (Fall.new sv clock).sys at ha0
    change FromOpen (Fall.new sv clock).sys at hf0
    clear hg
    generalize Fall.new sv clock = F0 at h hi0 ha0 hf0
    induction h with
    | nil => exact ⟨hi0, ha0, hf0⟩
    | cons h _ ih => exact ih (h.inv hi0) (h.attended hi0 ha0) (h.fromOpen hf0)
  obtain ⟨hi, ha, hf⟩ := this
  have hz : F.sys.conns.countP (·.pc.inActive) = 0 := by
    rw [List.countP_eq_zero]
    intro k hk hin
    obtain ⟨c, hc⟩ := List.getElem?_of_mem hk
    obtain ⟨r', h1, h2⟩ := ha c k hc hin
    obtain ⟨r1, h3, h4⟩ := hf c k hc
    have := running_unique hi h1 hg (attends_running h2) (by rw [hp]; rfl)
    rw [this, hg] at h3; cases h3
    rw [hp] at h4; cases h4
  have := hi.active
  omega

/-- Before the first panic, the run is one of the mock. -/
theorem Fall.Run.before {F F' : Fall} {tr : List FallEv} (h : Fall.Run F tr F') (hd : F'.dying = []) : ∃ t, tr = t.map .sys ∧ Sys.Run F.sys t F'.sys ∧ F.dying = [] := by
  induction h with
  | nil F => exact ⟨[], rfl, .nil _, hd⟩
  | cons h _ ih =>
    obtain ⟨t, e, hr, h0⟩ := ih hd
    cases h with
    | sys h => exact ⟨_ :: t, by rw [e]; rfl, .cons h hr, h0⟩
    | conn => cases h0
    | accept => cases h0

/-! ### Endless runs -/

/-- An endless run with a fair scheduler, in which goroutines may panic. -/
structure FallEndless (sv : Server) (clock : Int) (ss : Nat → Fall) (es : Nat → FallEv) : Prop where
  first : ss 0 = Fall.new sv clock
  step : ∀ n, Fall.Step (ss n) (es n) (ss (n + 1))
  fair : ∀ t, (∀ n, ∃ m, n ≤ m ∧ (ss m).sys.ready t) → ∀ n, ∃ m, n ≤ m ∧ (es m).of = some t

variable {sv : Server} {clock : Int} {ss : Nat → Fall} {es : Nat → FallEv}

theorem FallEndless.whole (h : FallEndless sv clock ss es) (n : Nat) : (ss n).sys.Inv ∧ (ss n).Falling := by
  induction n with
  | zero => rw [h.first]; exact Fall.new_inv sv clock
  | succ n ih => exact ⟨(h.step n).inv ih.1, (h.step n).falling ih.2⟩

theorem FallEndless.dying (h : FallEndless sv clock ss es) {n m : Nat} (hnm : n ≤ m) {t : Goroutine} (ht : t ∈ (ss n).dying) : t ∈ (ss m).dying := by
  induction hnm with
  | refl => exact ht
  | step _ ih => exact fall_dying (h.step _) ih

theorem FallEndless.run_stays (h : FallEndless sv clock ss es) {n m g : Nat} {r : RunG} (hnm : n ≤ m) (hg : (ss n).sys.runs[g]? = some r)
    (hno : ∀ j, n ≤ j → j < m → (es j).of ≠ some (.run g)) : (ss m).sys.runs[g]? = some r := by
  induction hnm with
  | refl => exact hg
  | @step m hle ih => exact fall_run_other (h.step m) (ih fun j h1 h2 => hno j h1 (by omega)) (hno m hle (by omega))

theorem FallEndless.conn_stays (h : FallEndless sv clock ss es) {n m c : Nat} {k : ConnG} (hnm : n ≤ m) (hc : (ss n).sys.conns[c]? = some k)
    (hno : ∀ j, n ≤ j → j < m → (es j).of ≠ some (.conn c)) : (ss m).sys.conns[c]? = some k := by
  induction hnm with
  | refl => exact hc
  | @step m hle ih => exact fall_conn_other (h.step m) (ih fun j h1 h2 => hno j h1 (by omega)) (hno m hle (by omega))

theorem FallEndless.first_act (h : FallEndless sv clock ss es) (t : Goroutine) (n : Nat)
    (hr : (∀ m, n ≤ m → (es m).of ≠ some t) → ∀ m, n ≤ m → ∃ m', m ≤ m' ∧ (ss m').sys.ready t) :
    ∃ m, n ≤ m ∧ (es m).of = some t ∧ ∀ j, n ≤ j → j < m → (es j).of ≠ some t := by
  have ex : ∃ m, n ≤ m ∧ (es m).of = some t := by
    refine Classical.byContradiction fun hno => ?_
    have hno : ∀ m, n ≤ m → (es m).of ≠ some t := fun m h1 h2 => hno ⟨m, h1, h2⟩
    refine absurd (h.fair t (fun m => ?_) n) fun ⟨m, h1, h2⟩ => hno m h1 h2
    obtain ⟨m', h1, h2⟩ := hr hno (max n m) (Nat.le_max_left ..)
    exact ⟨m', Nat.le_trans (Nat.le_max_right ..) h1, h2⟩
  obtain ⟨m, h1, h2⟩ := ex
  induction m using Nat.strongRecOn with
  | ind m ih =>
    by_cases hx : ∃ j, n ≤ j ∧ j < m ∧ (es j).of = some t
    · obtain ⟨j, a, b, c⟩ := hx
      exact ih j b a c
    · exact ⟨m, h1, h2, fun j a b c => hx ⟨j, a, b, c⟩⟩

/-- `km.mu` is free again and again. -/
theorem FallEndless.mu_free (h : FallEndless sv clock ss es) (n : Nat) : ∃ m, n ≤ m ∧ (ss m).sys.mu = none := by
  have holder : ∀ (m : Nat) (t : Holder), (ss m).sys.mu = some t ↔ (ss m).sys.holds t = true := fun m t => ((h.whole m).1.mu t).symm
  have api : ∀ (b n i : Nat), (ss n).sys.mu = some (.api i) → ((ss n).sys.api i).hold ≤ b → ∃ m, n ≤ m ∧ (ss m).sys.mu = none := by
    intro b
    induction b with
    | zero =>
      intro n i _ h2
      exfalso
      revert h2
      generalize (ss n).sys.api i = pc
      cases pc with
      | start k r => cases k <;> simp [ApiPc.hold]
      | stop k r => cases k <;> simp [ApiPc.hold]
      | _ => simp [ApiPc.hold]
    | succ b ih =>
      intro n i h1 h2
      have hl : ((ss n).sys.api i).locked = true := (holder n _).1 h1
      have stays : ∀ m, n ≤ m → (∀ j, n ≤ j → j < m → (es j).of ≠ some (.api i)) → (ss m).sys.api i = (ss n).sys.api i := by
        intro m hnm
        induction hnm with
        | refl => intro _; rfl
        | @step m hle ih =>
          intro hno
          have e := ih fun j h1 h2 => hno j h1 (by omega)
          rw [← e]
          exact (fall_api_other (h.step m) (hno m hle (by omega))).locked (by rw [e]; exact hl)
      obtain ⟨m, m1, m2, m3⟩ := h.first_act (.api i) n fun hno m hm => ⟨m, Nat.le_refl _, by
        have e := stays m hm fun j h1 _ => hno j h1
        show ((ss m).sys.api i).ready (ss m).sys
        rw [e]
        revert hl
        generalize (ss n).sys.api i = pc
        intro hl
        cases pc with
        | start k r => cases k <;> first | (cases hl; done) | trivial
        | stop k r => cases k <;> first | (cases hl; done) | trivial
        | _ => cases hl⟩
      have e := stays m m1 m3
      have hl' : ((ss m).sys.api i).locked = true := by rw [e]; exact hl
      have key : (ss (m + 1)).sys.mu = none ∨ (((ss (m + 1)).sys.api i).locked = true ∧ ((ss (m + 1)).sys.api i).hold < ((ss m).sys.api i).hold) := by
        have hst := h.step m
        generalize ss m = F at hst hl'
        generalize ss (m + 1) = F' at hst
        generalize es m = e0 at hst m2
        cases hst with
        | sys hs =>
          rcases step_by_api hs m2 with ⟨c, hn⟩ | ⟨a, f, r, w, hp, _⟩
          · exact apiStep_hold hn hl'
          · rw [hp] at hl'; cases hl'
        | conn => cases m2
        | accept => cases m2
      rcases key with key | ⟨k1, k2⟩
      · exact ⟨m + 1, by omega, key⟩
      · rw [e] at k2
        obtain ⟨m', a, b⟩ := ih (m + 1) i ((holder _ _).2 k1) (by omega)
        exact ⟨m', by omega, b⟩
  have run : ∀ (b n g : Nat) (r : RunG), (ss n).sys.runs[g]? = some r → r.pc.locked = true → r.pc.hold ≤ b → ∃ m, n ≤ m ∧ (ss m).sys.mu = none := by
    intro b
    induction b with
    | zero => intro n g r _ _ h3; cases hp : r.pc <;> rw [hp] at h3 <;> simp [RunPc.hold] at h3
    | succ b ih =>
      intro n g r h1 h2 h3
      obtain ⟨m, m1, m2, m3⟩ := h.first_act (.run g) n fun hno m hm => ⟨m, Nat.le_refl _, r, h.run_stays hm h1 fun j h1 _ => hno j h1, by
        cases hp : r.pc <;> rw [hp] at h2 <;> first | (cases h2; done) | trivial⟩
      have e := h.run_stays m1 h1 m3
      rcases fall_run_self (h.step m) m2 e with ⟨e', hs, he'⟩ | hp
      swap
      · rw [hp] at h2; cases h2
      obtain ⟨r0, r', a1, a2, a3, _⟩ := step_run_self hs he'
      rw [e] at a1; cases a1
      cases hl : r'.pc.locked with
      | true =>
        obtain ⟨m', b1, b2⟩ := ih (m + 1) g r' a3 hl (by
          obtain ⟨a2, _⟩ := a2
          cases hp : r.pc <;> rw [hp] at h2 a2 h3 <;> simp only [RunPc.next, List.mem_cons, List.not_mem_nil, or_false] at a2 <;>
            first | (cases h2; done) | skip
          all_goals rw [a2] at hl ⊢
          all_goals first | (cases hl; done) | (simp only [RunPc.hold] at h3 ⊢; omega))
        exact ⟨m', by omega, b2⟩
      | false =>
        refine ⟨m + 1, by omega, ?_⟩
        obtain ⟨a2, _⟩ := a2
        have hpc : r.pc = .unlock := by
          cases hp : r.pc <;> rw [hp] at h2 a2 <;> simp only [RunPc.next, List.mem_cons, List.not_mem_nil, or_false] at a2 <;>
            first | (cases h2; done) | rfl | (rw [a2] at hl; cases hl)
        obtain ⟨ok, hn⟩ := step_by_run hs he'
        simp only [Sys.runStep, e, hpc, Out.ok.injEq] at hn
        rw [← hn]; rfl
  have conn : ∀ (b n c : Nat) (k : ConnG) (o : OcPc), (ss n).sys.conns[c]? = some k → k.pc = .oc o → o ≠ .lock → o.hold ≤ b → ∃ m, n ≤ m ∧ (ss m).sys.mu = none := by
    intro b
    induction b with
    | zero => intro n c k o _ _ _ h3; cases o <;> simp [OcPc.hold] at h3
    | succ b ih =>
      intro n c k o h1 h2 h3 h4
      obtain ⟨m, m1, m2, m3⟩ := h.first_act (.conn c) n fun hno m hm => ⟨m, Nat.le_refl _, k, h.conn_stays hm h1 fun j h1 _ => hno j h1, by
        rw [h2]; cases o <;> first | (exact absurd rfl h3) | trivial⟩
      have e := h.conn_stays m1 h1 m3
      cases fall_conn_self (h.step m) m2 e with
      | panic hp => rw [h2] at hp; cases hp
      | sys hs he' =>
      obtain ⟨k0, a1, a2⟩ := step_conn_self hs he'
      rw [e] at a1; cases a1
      cases a2 with
      | act hp => rw [h2] at hp; cases hp
      | loop hp => rw [h2] at hp; cases hp
      | ret hp => rw [h2] at hp; cases hp
      | @oc o' hp hk =>
        rw [h2] at hp; cases hp
        by_cases hu : o = .unlock
        · subst hu
          refine ⟨m + 1, by omega, ?_⟩
          rcases step_by_conn hs he' with hn | ⟨k', p, hc, hp'⟩
          · simp only [Sys.connStep, e, h2, Out.ok.injEq] at hn
            rw [← hn]; rfl
          · rw [e] at hc; cases hc; rw [h2] at hp'; cases hp'
        · cases o with
          | unlock => exact absurd rfl hu
          | lock => exact absurd rfl h3
          | _ =>
            obtain ⟨m', b1, b2⟩ := ih (m + 1) c _ _ hk rfl (by intro h; cases h) (by simp only [OcPc.hold] at h4 ⊢; omega)
            exact ⟨m', by omega, b2⟩
  cases hm : (ss n).sys.mu with
  | none => exact ⟨n, Nat.le_refl _, hm⟩
  | some t =>
    cases t with
    | api i => exact api _ n i hm (Nat.le_refl _)
    | run g =>
      have hh := (holder n _).1 hm
      simp only [Sys.holds] at hh
      cases hr : (ss n).sys.runs[g]? with
      | none => rw [hr] at hh; cases hh
      | some r => rw [hr] at hh; exact run _ n g r hr hh (Nat.le_refl _)
    | conn c =>
      have hh := (holder n _).1 hm
      simp only [Sys.holds] at hh
      cases hr : (ss n).sys.conns[c]? with
      | none => rw [hr] at hh; cases hh
      | some k =>
        rw [hr] at hh
        have hh : k.pc.locked = true := hh
        cases hp : k.pc with
        | oc o => exact conn _ n c k o hr hp (by rintro rfl; rw [hp] at hh; cases hh) (Nat.le_refl _)
        | body => rw [hp] at hh; cases hh
        | ended => rw [hp] at hh; cases hh

/-- The close callback of a connection returns. -/
theorem FallEndless.oc_ends (h : FallEndless sv clock ss es) {n c : Nat} {k : ConnG} {o : OcPc} (hc : (ss n).sys.conns[c]? = some k) (hp : k.pc = .oc o) :
    ∃ m, n ≤ m ∧ (ss m).sys.conns[c]? = some { k with pc := .ended } := by
  generalize hr : o.rank = x
  induction x using Nat.strongRecOn generalizing n k o with
  | ind x ih =>
    obtain ⟨m, m1, m2, m3⟩ := h.first_act (.conn c) n fun hno m hm => by
      obtain ⟨m', h1, h2⟩ := h.mu_free m
      refine ⟨m', h1, k, h.conn_stays (by omega) hc fun j h1 _ => hno j h1, ?_⟩
      rw [hp]
      cases o <;> first | exact h2 | trivial
    have e := h.conn_stays m1 hc m3
    cases fall_conn_self (h.step m) m2 e with
    | panic hp' => rw [hp] at hp'; cases hp'
    | sys hs he' =>
    obtain ⟨k0, a1, a2⟩ := step_conn_self hs he'
    rw [e] at a1; cases a1
    cases a2 with
    | act hp' => rw [hp] at hp'; cases hp'
    | loop hp' => rw [hp] at hp'; cases hp'
    | ret hp' => rw [hp] at hp'; cases hp'
    | oc hp' hk =>
      rw [hp] at hp'; cases hp'
      cases o <;> cases hr
      all_goals first
        | exact ⟨m + 1, by omega, hk⟩
        | (obtain ⟨m', b1, b2⟩ := ih _ (by decide) hk rfl rfl; exact ⟨m', by omega, b2⟩)

theorem FallEndless.conn_ended (h : FallEndless sv clock ss es) {n m c : Nat} {k : ConnG} (hnm : n ≤ m) (hc : (ss n).sys.conns[c]? = some k) (hp : k.pc = .ended) :
    (ss m).sys.conns[c]? = some k := by
  induction hnm with
  | refl => exact hc
  | @step m _ ih =>
    refine fall_conn_other (h.step m) ih fun he => ?_
    cases fall_conn_self (h.step m) he ih with
    | panic hp' => rw [hp] at hp'; cases hp'
    | sys hs he' =>
    obtain ⟨k0, h1, h2⟩ := step_conn_self hs he'
    rw [ih] at h1; cases h1
    cases h2 with
    | act hp' => rw [hp] at hp'; cases hp'
    | loop hp' => rw [hp] at hp'; cases hp'
    | ret hp' => rw [hp] at hp'; cases hp'
    | oc hp' => rw [hp] at hp'; cases hp'

/-- While an accept loop that waits for its connections does not go on, there are no new connections. -/
theorem FallEndless.no_new (h : FallEndless sv clock ss es) {n g : Nat} {r : RunG} (hg : (ss n).sys.runs[g]? = some r) (hp : r.pc = .waitActive)
    (hno : ∀ m, n ≤ m → (es m).of ≠ some (.run g)) {m : Nat} (hm : n ≤ m) : (ss m).sys.conns.length = (ss n).sys.conns.length := by
  have stays : ∀ m, n ≤ m → (ss m).sys.runs[g]? = some r := fun m hm => h.run_stays hm hg fun j h1 _ => hno j h1
  induction hm with
  | refl => rfl
  | @step m hm ih =>
    rw [← ih]
    have hi := (h.whole m).1
    have hst := h.step m
    have hg' := stays m hm
    generalize ss m = F at hst hi hg'
    generalize ss (m + 1) = F' at hst
    generalize es m = e0 at hst
    cases hst with
    | conn => exact List.length_set
    | accept => rfl
    | sys hs =>
    cases hs.shape with
    | quiet e => rw [e]
    | reset _ _ _ e => rw [e]
    | loop _ _ _ _ _ _ _ e => rw [e]
    | register g1 r' hg1 hp' _ _ _ =>
      exfalso
      have := running_unique hi hg' hg1 (by rw [hp]; rfl) (by rw [hp']; rfl)
      subst this
      rw [hg'] at hg1; cases hg1
      rw [hp] at hp'; cases hp'
    | conn _ _ _ _ _ _ e => rw [e, List.length_set]
    | delete _ _ _ _ _ _ e => rw [e, List.length_set]

/-- An accept loop that waits for its connections goes on when they have ended. -/
theorem FallEndless.active_zero (h : FallEndless sv clock ss es) {n g : Nat} {r : RunG} (hg : (ss n).sys.runs[g]? = some r) (hp : r.pc = .waitActive)
    (hend : ∀ c k, (ss n).sys.conns[c]? = some k → ∃ m, n ≤ m ∧ (ss m).sys.over (.conn c))
    (hno : ∀ m, n ≤ m → (es m).of ≠ some (.run g)) : ∃ M, n ≤ M ∧ ∀ m, M ≤ m → (ss m).sys.active = 0 := by
  have len := fun m (hm : n ≤ m) => h.no_new hg hp hno hm
  have all : ∀ L, L ≤ (ss n).sys.conns.length → ∃ M, n ≤ M ∧ ∀ c, c < L → ∃ k, (ss M).sys.conns[c]? = some k ∧ k.pc = .ended := by
    intro L
    induction L with
    | zero => intro _; exact ⟨n, Nat.le_refl _, fun c h => absurd h (Nat.not_lt_zero _)⟩
    | succ L ih =>
      intro hL
      obtain ⟨M, h1, h2⟩ := ih (by omega)
      obtain ⟨M', h3, k, h4, h5⟩ := hend L _ (List.getElem?_eq_getElem (by omega))
      refine ⟨max M M', by omega, fun c hc => ?_⟩
      rcases Nat.lt_or_ge c L with hc' | hc'
      · obtain ⟨k', a, b⟩ := h2 c hc'
        exact ⟨k', h.conn_ended (Nat.le_max_left ..) a b, b⟩
      · have : c = L := by omega
        subst this
        exact ⟨_, h.conn_ended (Nat.le_max_right ..) h4 h5, h5⟩
  obtain ⟨M, h1, h2⟩ := all _ (Nat.le_refl _)
  refine ⟨M, h1, fun m hm => ?_⟩
  have := (h.whole m).1.active
  have hz : (ss m).sys.conns.countP (·.pc.inActive) = 0 := by
    rw [List.countP_eq_zero]
    intro k hk
    obtain ⟨c, hc⟩ := List.getElem?_of_mem hk
    have hlt := (List.getElem?_eq_some_iff.1 hc).1
    rw [len m (by omega)] at hlt
    obtain ⟨k', a, b⟩ := h2 c hlt
    have := h.conn_ended hm a b
    rw [hc] at this; cases this
    rw [b]; decide
  omega

end KM
