import Verif.Props.LockFair
/-
Property C139: the mutexes of the store rule nothing out: what the mock can do when each function of the store is one action it can also do when the functions are sequences of single accesses with
mutexes. With C63 the two are the same as far as anybody can see.
-/
namespace KM.Props
open KM KM.Spec

/-- Nobody is inside a function of the store. -/
def _root_.KM.Fine.still (F : Fine) : Prop := ∀ t, (F.loc t).pc = .out

/-- An action of a goroutine. -/
def actEv : Tid → (a : Act) → a.Resp → SEv
  | .conn c, a, r => .conn c a r
  | .api i, a, r => .call i a r

/-- A function of the store has one result, up to the order of maps, and one effect. -/
theorem step_det {a : Act} (ha : a.onStore = true) {w w1 w2 : World} {r1 r2 : a.Resp} (h1 : a.step w r1 w1) (h2 : a.step w r2 w2) : a.upTo r1 r2 ∧ w2 = w1 := by
  cases a with
  | createTopic => exact ⟨rfl, h2.trans h1.symm⟩
  | getTopic => exact ⟨h2.2.trans h1.2.symm, h2.1.trans h1.1.symm⟩
  | createPartition | post | commit | setOffset => exact ⟨rfl, h2.2.trans h1.2.symm⟩
  | getPartition => exact ⟨h2.2.2.trans h1.2.2.symm, h2.2.1.trans h1.2.1.symm⟩
  | groupCommitted | partInfo | numRecords =>
    obtain ⟨k, e, h3, h4⟩ := h1
    obtain ⟨k', e', h3', h4'⟩ := h2
    cases e.symm.trans e'
    exact ⟨h3'.trans h3.symm, h4'.trans h4.symm⟩
  | recordAt | fetchRecord =>
    obtain ⟨k, e, h3, h4⟩ := h1
    obtain ⟨k', e', h3', h4'⟩ := h2
    cases e.symm.trans e'
    exact ⟨h4'.trans h4.symm, h3'.trans h3.symm⟩
  | rangeTopics => exact ⟨h2.2.trans h1.2.symm, h2.1.trans h1.1.symm⟩
  | rangePartitions =>
    obtain ⟨h3, k, e, h4⟩ := h1
    obtain ⟨h3', k', e', h4'⟩ := h2
    cases e.symm.trans e'
    exact ⟨h4'.trans h4.symm, h3'.trans h3.symm⟩
  | _ => cases ha

theorem actEv_prog {s s' : Sys} {t : Tid} {a : Act} {r : a.Resp} (h : Sys.Step s (actEv t a r) s') : ∃ f, s.prog t = some (.act a f) := by
  cases t with
  | conn c => cases h with | conn hc hp _ => exact ⟨_, Sys.prog_conn.2 ⟨_, hc, hp⟩⟩
  | api i => cases h with | call hp _ => exact ⟨_, Sys.prog_api.2 hp⟩

/-- The others being outside, a goroutine can make its next access. -/
theorem not_blocked {F : Fine} {t : Tid} (hF : F.WF) (hL : F.Live) (ho : ∀ u, u ≠ t → (F.loc u).pc = .out) {a : Act} {f : a.Resp → Prog Unit}
    (hp : F.sys.prog t = some (.act a f)) (ha : a.onStore = true) (hn : ∀ k, (F.loc t).pc ≠ .leave k) : micro t a F.mem (F.loc t) ≠ .blocked := by
  unfold micro
  cases hpc : (F.loc t).pc with
  | leave k => exact absurd hpc (hn k)
  | inside k s =>
    obtain ⟨a', f', h1, h2, h3⟩ := (hL t).inside k s hpc
    rw [hp] at h1
    cases h1
    simp only
    rw [if_pos h2]
    exact critical_ready h2 h3
  | out =>
    obtain ⟨K, Q, hok, hK⟩ := (hL t).ok _ hp
    cases hk : a.lock (F.loc t) with
    | none => exact unlocked_ready ha hk fun x hx => hK x (hok.1 x hx)
    | some k =>
      have : F.mem.locks k = none := by
        cases hl : F.mem.locks k with
        | none => rfl
        | some u =>
          have hu : (F.loc u).pc = .out := by
            by_cases e : u = t
            · rw [e]; exact hpc
            · exact ho u e
          rcases hF.owner k u hl with h1 | ⟨s, h1⟩ <;> rw [hu] at h1 <;> cases h1
      simp only [this, if_pos]
      nofun

theorem still_of {F : Fine} {t : Tid} (ho : ∀ u, u ≠ t → (F.loc u).pc = .out) (h : (F.loc t).pc = .out) : F.still := fun u => by
  by_cases e : u = t
  · rw [e]; exact h
  · exact ho u e

/-- An action on the store as a sequence of accesses, when nobody else is inside a function of the store. -/
theorem settle {t : Tid} {a : Act} {r : a.Resp} {s' : Sys} (ha : a.onStore = true) : ∀ (n : Nat) {F : Fine}, F.WF → F.Live → (∀ u, u ≠ t → (F.loc u).pc = .out) →
    (∀ k, (F.loc t).pc ≠ .leave k) → rank (F.loc t).pc ≤ n → Sys.Step F.load (actEv t a r) s' →
    ∃ tr F', Fine.Run F tr F' ∧ F'.still ∧ tr.filterMap FEv.sys? = [actEv t a r] ∧ F'.load = s' := by
  intro n
  induction n with
  | zero => intro F _ _ _ _ hr _; cases hpc : (F.loc t).pc with
    | inside k s => rw [hpc] at hr; cases s <;> simp [rank] at hr
    | _ => rw [hpc] at hr; simp [rank] at hr
  | succ n ih =>
    intro F hF hL ho hn hr hs
    obtain ⟨f, hp⟩ := actEv_prog hs
    have hp : F.sys.prog t = some (.act a f) := hp
    have hg := micro_good (a := a) hF.mem (hF.loc t) (fun k => hF.owner k _)
    cases hm : micro t a F.mem (F.loc t) with
    | blocked => exact absurd hm (not_blocked hF hL ho hp ha hn)
    | go m l =>
      have hst : Fine.Step F (.mem t) { F with mem := m, loc := F.setLoc t l } := by
        cases t with
        | conn c => obtain ⟨k, hc, hk⟩ := Sys.prog_conn.1 hp; exact .connGo hc hk hm
        | api i => exact .callGo (Sys.prog_api.1 hp) hm
      have hlt := rank_lt hst
      obtain ⟨h1, h2⟩ := hst.refines hF
      obtain ⟨_, _, k, s, hk, _⟩ := micro_go hm
      obtain ⟨tr, F', h3, h4, h5, h6⟩ := ih h1 (hst.live hF hL) (fun u hu => by simp only [Fine.setLoc, if_neg hu]; exact ho u hu)
        (fun j hj => by simp only [Fine.setLoc, if_pos] at hj; rw [hk] at hj; cases hj) (Nat.le_of_lt_succ (Nat.lt_of_lt_of_le hlt hr))
        (by rw [show Fine.load _ = F.load from h2]; exact hs)
      exact ⟨_, F', .cons hst h3, h4, h5, h6⟩
    | done r0 m l =>
      rw [hm] at hg
      have key : ∃ F1, Fine.Step F (.sys (actEv t a r)) F1 ∧ F1.load = s' ∧ F1.mem = m ∧ F1.loc = F.setLoc t l := by
        cases t with
        | conn c =>
          cases hs with
          | @conn _ k _ f' _ w hc hk hw =>
            obtain ⟨h1, h2⟩ := step_det ha (hg.1 r0 (a.upTo_refl r0) _ _) hw
            exact ⟨_, .connDone hc hk hm h1, by rw [h2]; rfl, rfl, rfl⟩
        | api i =>
          cases hs with
          | @call _ _ f' _ w hk hw =>
            obtain ⟨h1, h2⟩ := step_det ha (hg.1 r0 (a.upTo_refl r0) _ _) hw
            exact ⟨_, .callDone hk hm h1, by rw [h2]; rfl, rfl, rfl⟩
      obtain ⟨F1, hst, hl, hmem, hloc⟩ := key
      have ho1 : ∀ u, u ≠ t → (F1.loc u).pc = .out := fun u hu => by rw [hloc]; simp only [Fine.setLoc, if_neg hu]; exact ho u hu
      have ht1 : F1.loc t = l := by rw [hloc]; simp [Fine.setLoc]
      rcases (micro_done (hF.loc t) hm (a.upTo_refl r0)).2.2 with ⟨_, h1⟩ | ⟨k, s, _, h1⟩
      · exact ⟨_, F1, .cons hst (.nil _), still_of ho1 (by rw [ht1]; exact h1), rfl, hl⟩
      · have hu := Fine.Step.unlock (F := F1) (t := t) (k := k) (by rw [ht1]; exact h1)
        refine ⟨_, _, .cons hst (.cons hu (.nil _)), still_of (t := t) (fun u hu => ?_) ?_, rfl, hl⟩
        · simp only [Fine.setLoc, if_neg hu]; exact ho1 u hu
        · simp only [Fine.setLoc, if_pos]; rfl

/-- What is not an action on the store does not change it. -/
theorem quiet_ds {s s' : Sys} {e : SEv} (hq : e.quiet = true) (h : Sys.Step s e s') : s'.ds = s.ds := by
  cases h with
  | life h =>
    have := next_ds h s.ds
    rw [show s.withDs s.ds = s from rfl, h] at this
    injection this with this
    have := congrArg Sys.ds this
    exact this
  | conn hc hp ha => exact (Act.step_ds (by simpa [SEv.quiet] using hq) ha s.ds).2
  | unroll => rfl
  | call hp ha => exact (Act.step_ds (by simpa [SEv.quiet] using hq) ha s.ds).2
  | tick => rfl

/-- One step of the mock, with mutexes. -/
theorem one_step {F : Fine} (hF : F.WF) (hL : F.Live) (ho : F.still) {e : SEv} {s' : Sys} (hs : Sys.Step F.load e s') :
    ∃ tr F', Fine.Run F tr F' ∧ F'.still ∧ tr.filterMap FEv.sys? = [e] ∧ F'.load = s' := by
  have quiet : e.quiet = true → ∃ tr F', Fine.Run F tr F' ∧ F'.still ∧ tr.filterMap FEv.sys? = [e] ∧ F'.load = s' := fun hq => by
    have h1 : Sys.Step F.sys e (s'.withDs F.sys.ds) := KM.step_ds hq hs F.sys.ds
    refine ⟨_, _, .cons (.other hq (fun t _ => ho t) h1) (.nil _), ho, rfl, ?_⟩
    have : s'.ds = F.mem.load := quiet_ds hq hs
    show { s' with ds := F.mem.load } = s'
    rw [← this]
  have act : ∀ (t : Tid) (a : Act) (r : a.Resp), e = actEv t a r → a.onStore = true → ∃ tr F', Fine.Run F tr F' ∧ F'.still ∧ tr.filterMap FEv.sys? = [e] ∧ F'.load = s' := by
    rintro t a r rfl ha
    exact settle ha 3 hF hL (fun u _ => ho u) (fun k hk => by rw [ho t] at hk; cases hk) (by rw [ho t]; exact Nat.le_refl _) hs
  cases e with
  | conn c a r =>
    cases ha : a.onStore with
    | true => exact act (.conn c) a r rfl ha
    | false => exact quiet (by simp [SEv.quiet, ha])
  | call i a r =>
    cases ha : a.onStore with
    | true => exact act (.api i) a r rfl ha
    | false => exact quiet (by simp [SEv.quiet, ha])
  | _ => exact quiet rfl

theorem all_steps {s s' : Sys} {tr : List SEv} (h : Sys.Run s tr s') : ∀ {F : Fine}, F.WF → F.Live → F.still → F.load = s →
    ∃ ft F', Fine.Run F ft F' ∧ F'.still ∧ ft.filterMap FEv.sys? = tr ∧ F'.load = s' := by
  induction h with
  | nil => intro F _ _ ho hl; exact ⟨[], F, .nil _, ho, rfl, hl⟩
  | cons h _ ih =>
    intro F hF hL ho hl
    rw [← hl] at h
    obtain ⟨t1, F1, h1, h2, h3, h4⟩ := one_step hF hL ho h
    obtain ⟨t2, F2, h5, h6, h7, h8⟩ := ih (h1.refines hF).1 (h1.live hF hL) h2 h4
    exact ⟨t1 ++ t2, F2, Fine.Run.append h1 h5, h6, by rw [List.filterMap_append, h3, h7]; rfl, h8⟩

/-- **C139**: every run of the mock in which each function of the store is one action is a run of the mock with its mutexes: with the same events besides the accesses that settle nothing, in the same
order, with the same results, and with the same data in memory at the end, when no mutex is locked. -/
theorem C139 {sv : Server} {clock : Int} {tr : List SEv} {s : Sys} (h : Sys.Run (Sys.new sv clock) tr s) :
    ∃ ft F, Fine.Run (Fine.new sv clock) ft F ∧ settled ft = tr ∧ F.load = s ∧ ∀ k, F.mem.locks k = none := by
  obtain ⟨ft, F, h1, h2, h3, h4⟩ := all_steps h (Fine.new_wf sv clock) (Fine.new_live sv clock) (fun _ => rfl) rfl
  refine ⟨ft, F, h1, h3, h4, fun k => ?_⟩
  cases hl : F.mem.locks k with
  | none => rfl
  | some u => rcases (h1.refines (Fine.new_wf sv clock)).1.owner k u hl with h | ⟨_, h⟩ <;> rw [h2 u] at h <;> cases h

/-- **C139**, both directions: what the mock does with its mutexes and what it does when each function of the store is one action is the same. -/
theorem C139_iff {sv : Server} {clock : Int} {tr : List SEv} {s : Sys} :
    Sys.Run (Sys.new sv clock) tr s ↔ ∃ ft F, Fine.Run (Fine.new sv clock) ft F ∧ settled ft = tr ∧ F.load = s := by
  constructor
  · intro h
    obtain ⟨ft, F, h1, h2, h3, _⟩ := C139 h
    exact ⟨ft, F, h1, h2, h3⟩
  · rintro ⟨ft, F, h, rfl, rfl⟩
    exact (h.refines (Fine.new_wf sv clock)).2

/-! ### Endless runs -/

/-- The event with mutexes in which an action settles or something else happens. -/
def fineEv : NEv → FNEv
  | .mock e => .mock (.sys e)
  | .send c b => .send c b
  | .receive c b => .receive c b

theorem fineEv_of (e : NEv) : (fineEv e).of = (inMock e).of := by cases e <;> rfl

/-- A step of the mock and its clients as a sequence of `len` steps with mutexes. -/
structure Block (N N' : FineNet) (e : NEv) (len : Nat) (g : Nat → FineNet) (ev : Nat → FNEv) : Prop where
  first : g 0 = N
  last : g len = N'
  step : ∀ i, i < len → FineNet.Step (g i) (ev i) (g (i + 1))
  seen : ∀ i, i ≤ len → (g i).coarse = N.coarse ∨ (g i).coarse = N'.coarse
  settles : ∃ j, j < len ∧ ev j = fineEv e ∧ ∀ i, i < len → i ≠ j → ∃ t, ev i = .mock (.mem t)

/-- A function with a new first value. -/
def pushed {α : Type u} (x : α) (g : Nat → α) : Nat → α
  | 0 => x
  | i + 1 => g i

theorem mem_block {F F' : Fine} {ft : List FEv} (h : Fine.Run F ft F') (L : Nat → Link) : F.WF → settled ft = [] →
    ∃ (len : Nat) (g : Nat → FineNet) (ev : Nat → FNEv), g 0 = ⟨F, L⟩ ∧ g len = ⟨F', L⟩ ∧ (∀ i, i < len → FineNet.Step (g i) (ev i) (g (i + 1))) ∧
      (∀ i, i ≤ len → (g i).coarse = ⟨F'.load, L⟩) ∧ ∀ i, i < len → ∃ t, ev i = .mock (.mem t) := by
  induction h with
  | nil F => exact fun _ _ => ⟨0, fun _ => ⟨F, L⟩, fun _ => .send 0 [], rfl, rfl, nofun, fun _ _ => rfl, nofun⟩
  | @cons F F1 F2 e es h hs ih =>
    intro hF he
    cases e with
    | sys e => cases he
    | mem t =>
      obtain ⟨h1, h2⟩ := h.refines hF
      obtain ⟨len, g, ev, g1, g2, g3, g4, g5⟩ := ih h1 he
      refine ⟨len + 1, pushed (⟨F, L⟩ : FineNet) g, pushed (.mock (.mem t)) ev, by rfl, by exact g2, fun i hi => ?_, fun i hi => ?_, fun i hi => ?_⟩
      · cases i with
        | zero => show FineNet.Step ⟨F, L⟩ _ (g 0); rw [g1]; exact .mem h
        | succ i => exact g3 i (by omega)
      · cases i with
        | zero =>
          have h3 := g4 0 (Nat.zero_le _)
          rw [g1] at h3
          have h3 : (⟨F1.load, L⟩ : Net) = ⟨F2.load, L⟩ := h3
          have h2 : F1.load = F.load := h2
          show (⟨F.load, L⟩ : Net) = _
          rw [← h2]; exact h3
        | succ i => exact g4 i (by omega)
      · cases i with
        | zero => exact ⟨t, rfl⟩
        | succ i => exact g5 i (by omega)

theorem sys_block {F F' : Fine} {ft : List FEv} (h : Fine.Run F ft F') {L L' : Nat → Link} {e : SEv} (hl : Carries e L L') : F.WF → settled ft = [e] →
    ∃ len g ev, Block ⟨F, L⟩ ⟨F', L'⟩ (.mock e) len g ev := by
  induction h with
  | nil F => exact fun _ he => by cases he
  | @cons F F1 F2 x es h hs ih =>
    intro hF he
    obtain ⟨h1, h2⟩ := h.refines hF
    cases x with
    | sys x =>
      have he : x :: settled es = [e] := he
      injection he with e1 e2
      subst e1
      obtain ⟨len, g, ev, g1, g2, g3, g4, g5⟩ := mem_block hs L' h1 e2
      refine ⟨len + 1, pushed (⟨F, L⟩ : FineNet) g, pushed (.mock (.sys x)) ev, by rfl, by exact g2, fun i hi => ?_, fun i hi => ?_, 0, by omega, rfl, fun i hi hne => ?_⟩
      · cases i with
        | zero => show FineNet.Step ⟨F, L⟩ _ (g 0); rw [g1]; exact .sys h hl
        | succ i => exact g3 i (by omega)
      · cases i with
        | zero => exact .inl rfl
        | succ i => exact .inr (g4 i (by omega))
      · cases i with
        | zero => exact absurd rfl hne
        | succ i => exact g5 i (by omega)
    | mem t =>
      obtain ⟨len, g, ev, b⟩ := ih h1 he
      have h2 : F1.load = F.load := h2
      have hc : (⟨F1, L⟩ : FineNet).coarse = (⟨F, L⟩ : FineNet).coarse := by show (⟨F1.load, L⟩ : Net) = ⟨F.load, L⟩; rw [h2]
      obtain ⟨j, j1, j2, j3⟩ := b.settles
      refine ⟨len + 1, pushed (⟨F, L⟩ : FineNet) g, pushed (.mock (.mem t)) ev, by rfl, by exact b.last, fun i hi => ?_, fun i hi => ?_, j + 1, by omega, j2, fun i hi hne => ?_⟩
      · cases i with
        | zero => show FineNet.Step ⟨F, L⟩ _ (g 0); rw [b.first]; exact .mem h
        | succ i => exact b.step i (by omega)
      · cases i with
        | zero => exact .inl rfl
        | succ i => exact (b.seen i (by omega)).imp_left fun h => h.trans hc
      · cases i with
        | zero => exact ⟨t, rfl⟩
        | succ i => exact j3 i (by omega) (by omega)

/-- The mock with mutexes, between two steps of the other one. -/
structure AllStill (N : FineNet) (n : Net) : Prop where
  wf : N.fine.WF
  live : N.fine.Live
  still : N.fine.still
  same : N.coarse = n

theorem net_step {N : FineNet} {n n' : Net} {e : NEv} (hN : AllStill N n) (h : Net.Step n e n') : ∃ N' len g ev, AllStill N' n' ∧ Block N N' e len g ev := by
  obtain ⟨hF, hL, ho, rfl⟩ := hN
  have one : ∀ {N' : FineNet} {x : NEv}, FineNet.Step N (fineEv x) N' → ∃ len g ev, Block N N' x len g ev := fun {N' x} hs => by
    refine ⟨1, (pushed N fun _ => N' : Nat → FineNet), fun _ => fineEv x, by rfl, by rfl, fun i hi => ?_, fun i hi => ?_, 0, by omega, rfl, fun i hi hne => absurd hi (by omega)⟩
    · obtain rfl : i = 0 := by omega
      exact hs
    · cases i with
      | zero => exact .inl rfl
      | succ i => exact .inr rfl
  cases h with
  | mock h hl =>
    obtain ⟨ft, F', h1, h2, h3, h4⟩ := one_step hF hL ho h
    obtain ⟨len, g, ev, b⟩ := sys_block h1 hl hF h3
    exact ⟨⟨F', _⟩, len, g, ev, ⟨(h1.refines hF).1, h1.live hF hL, h2, by show (⟨F'.load, _⟩ : Net) = _; rw [h4]⟩, b⟩
  | send c b =>
    obtain ⟨len, g, ev, h1⟩ := one (x := .send c b) (.send c b)
    refine ⟨_, len, g, ev, ?_, h1⟩
    exact ⟨hF, hL, ho, rfl⟩
  | receive hb =>
    obtain ⟨len, g, ev, h1⟩ := one (x := .receive _ _) (.receive hb)
    refine ⟨_, len, g, ev, ?_, h1⟩
    exact ⟨hF, hL, ho, rfl⟩

/-- The block of step number `j`, and its number in the block. -/
def place (len : Nat → Nat) : Nat → Nat × Nat
  | 0 => (0, 0)
  | j + 1 => if (place len j).2 + 1 < len (place len j).1 then ((place len j).1, (place len j).2 + 1) else ((place len j).1 + 1, 0)

/-- Number of the first step of a block. -/
def start (len : Nat → Nat) : Nat → Nat
  | 0 => 0
  | n + 1 => start len n + len n

theorem place_lt {len : Nat → Nat} (hpos : ∀ n, 0 < len n) (j : Nat) : (place len j).2 < len (place len j).1 := by
  induction j with
  | zero => exact hpos 0
  | succ j ih =>
    simp only [place]
    split
    · next h => exact h
    · exact hpos _

theorem place_start {len : Nat → Nat} (hpos : ∀ n, 0 < len n) (n : Nat) : ∀ i, i < len n → place len (start len n + i) = (n, i) := by
  induction n with
  | zero =>
    intro i hi
    induction i with
    | zero => rfl
    | succ i ih =>
      have := ih (by omega)
      show place len (start len 0 + i + 1) = _
      simp only [place, this, if_pos hi]
  | succ n ihn =>
    intro i hi
    induction i with
    | zero =>
      have := ihn (len n - 1) (by have := hpos n; omega)
      have e : start len (n + 1) + 0 = start len n + (len n - 1) + 1 := by have := hpos n; simp only [start]; omega
      rw [e]
      simp only [place, this]
      rw [if_neg (by have := hpos n; omega)]
    | succ i ih =>
      have := ih (by omega)
      show place len (start len (n + 1) + i + 1) = _
      simp only [place, this, if_pos hi]

theorem start_lt {len : Nat → Nat} (hpos : ∀ n, 0 < len n) (n : Nat) : start len n < start len (n + 1) := Nat.lt_add_of_pos_right (hpos n)

theorem start_ge {len : Nat → Nat} (hpos : ∀ n, 0 < len n) (n : Nat) : n ≤ start len n := by
  induction n with
  | zero => exact Nat.zero_le _
  | succ n ih => exact Nat.lt_of_le_of_lt ih (start_lt hpos n)

theorem place_eq {len : Nat → Nat} (hpos : ∀ n, 0 < len n) (j : Nat) : j = start len (place len j).1 + (place len j).2 := by
  induction j with
  | zero => rfl
  | succ j ih =>
    have hlt := place_lt hpos j
    simp only [place]
    split
    · simp only; omega
    · simp only [start]; omega

theorem start_mono {len : Nat → Nat} (hpos : ∀ n, 0 < len n) {m n : Nat} (h : m ≤ n) : start len m ≤ start len n := by
  induction h with
  | refl => exact Nat.le_refl _
  | step _ ih => exact Nat.le_trans ih (Nat.le_of_lt (start_lt hpos _))

/-- From the `n`-th block on. -/
theorem place_ge {len : Nat → Nat} (hpos : ∀ n, 0 < len n) {n j : Nat} (h : start len n ≤ j) : n ≤ (place len j).1 := by
  refine Nat.le_of_not_lt fun hlt => ?_
  have h1 := place_eq hpos j
  have h2 := place_lt hpos j
  have h3 : start len ((place len j).1 + 1) ≤ start len n := start_mono hpos hlt
  simp only [start] at h3
  omega

/-- **C139**, endless runs: every endless run of the mock and its clients in which each function of the store is one action, under a fair scheduler, is an endless run of the mock with its mutexes, under
a scheduler that is fair to goroutines that do not wait for a mutex. Step `n` of the first is the only one in the second between steps `φ n` and `φ (n + 1)` that settles anything. -/
theorem C139_endless {sv : Server} {clock : Int} {ns : Nat → Net} {es : Nat → NEv} {S : Goroutine → Prop} (h : NetEndless sv clock ns es S) :
    ∃ (fs : Nat → FineNet) (fe : Nat → FNEv) (φ : Nat → Nat), FineEndless sv clock fs fe S ∧ φ 0 = 0 ∧ ∀ n, φ n < φ (n + 1) ∧ (fs (φ n)).coarse = ns n ∧ (∀ k, (fs (φ n)).fine.mem.locks k = none) ∧
      ∃ j, φ n ≤ j ∧ j < φ (n + 1) ∧ fe j = fineEv (es n) ∧ ∀ i, φ n ≤ i → i < φ (n + 1) → i ≠ j → ∃ t, fe i = .mock (.mem t) := by
  classical
  -- the states between the blocks
  have ex : ∀ n (N : { N : FineNet // AllStill N (ns n) }), ∃ N' : { N : FineNet // AllStill N (ns (n + 1)) }, ∃ len g ev, Block N.1 N'.1 (es n) len g ev := fun n N => by
    obtain ⟨N', len, g, ev, h1, h2⟩ := net_step N.2 (h.step n)
    exact ⟨⟨N', h1⟩, len, g, ev, h2⟩
  have c0 : AllStill (FineNet.new sv clock) (ns 0) := ⟨Fine.new_wf sv clock, Fine.new_live sv clock, fun _ => rfl, by rw [h.first]; rfl⟩
  let X : (n : Nat) → { N : FineNet // AllStill N (ns n) } := fun n => Nat.rec ⟨FineNet.new sv clock, c0⟩ (fun n N => (ex n N).choose) n
  have hX : ∀ n, ∃ len g ev, Block (X n).1 (X (n + 1)).1 (es n) len g ev := fun n => (ex n (X n)).choose_spec
  choose len g ev hb using hX
  have hpos : ∀ n, 0 < len n := fun n => by obtain ⟨j, hj, _⟩ := (hb n).settles; omega
  let fs : Nat → FineNet := fun j => g (place len j).1 (place len j).2
  let fe : Nat → FNEv := fun j => ev (place len j).1 (place len j).2
  have at_fs : ∀ n i, i < len n → fs (start len n + i) = g n i := fun n i hi => by show g _ _ = _; rw [place_start hpos n i hi]
  have at_fe : ∀ n i, i < len n → fe (start len n + i) = ev n i := fun n i hi => by show ev _ _ = _; rw [place_start hpos n i hi]
  have at_start : ∀ n, fs (start len n) = (X n).1 := fun n => (at_fs n 0 (hpos n)).trans (hb n).first
  have one : ∀ n, ∃ j, start len n ≤ j ∧ j < start len (n + 1) ∧ fe j = fineEv (es n) ∧ ∀ i, start len n ≤ i → i < start len (n + 1) → i ≠ j → ∃ t, fe i = .mock (.mem t) := fun n => by
    obtain ⟨j, j1, j2, j3⟩ := (hb n).settles
    refine ⟨start len n + j, Nat.le_add_right .., by simp only [start]; omega, (at_fe n j j1).trans j2, fun i i1 i2 i3 => ?_⟩
    simp only [start] at i2
    obtain ⟨t, ht⟩ := j3 (i - start len n) (by omega) (by omega)
    have := at_fe n (i - start len n) (by omega)
    rw [show start len n + (i - start len n) = i by omega] at this
    exact ⟨t, this.trans ht⟩
  refine ⟨fs, fe, start len, ⟨(hb 0).first, fun j => ?_, fun t hS hr n => ?_⟩, rfl, fun n => ⟨start_lt hpos n, by rw [at_start]; exact (X n).2.same, fun k => ?_, one n⟩⟩
  · have hlt := place_lt hpos j
    have hs := (hb (place len j).1).step _ hlt
    have : fs (j + 1) = g (place len j).1 ((place len j).2 + 1) := by
      show g (place len (j + 1)).1 (place len (j + 1)).2 = _
      simp only [place]
      split
      · rfl
      · next hn =>
        rw [show (place len j).2 + 1 = len (place len j).1 by omega, (hb (place len j).1).last]
        exact (hb ((place len j).1 + 1)).first
    rw [this]
    exact hs
  · have : ∀ n, ∃ m, n ≤ m ∧ (ns m).sys.ready t := fun n => by
      obtain ⟨m, m1, m2, _⟩ := hr (start len n)
      have hge := place_ge hpos m1
      have m2 : (fs m).coarse.sys.ready t := (Fine.ready_load _ _).2 m2
      rcases (hb (place len m).1).seen _ (Nat.le_of_lt (place_lt hpos m)) with e | e
      · have e : (fs m).coarse = ns (place len m).1 := e.trans (X _).2.same
        exact ⟨_, hge, by rw [← e]; exact m2⟩
      · have e : (fs m).coarse = ns ((place len m).1 + 1) := e.trans (X ((place len m).1 + 1)).2.same
        exact ⟨(place len m).1 + 1, by omega, by rw [← e]; exact m2⟩
    obtain ⟨m, m1, m2⟩ := h.fair t hS this n
    obtain ⟨j, j1, _, j3, _⟩ := one m
    refine ⟨j, Nat.le_trans m1 (Nat.le_trans (start_ge hpos m) j1), ?_⟩
    rw [j3, fineEv_of]
    exact m2
  · rw [at_start]
    cases hl : (X n).1.fine.mem.locks k with
    | none => rfl
    | some u => rcases (X n).2.wf.owner k u hl with h | ⟨_, h⟩ <;> rw [(X n).2.still u] at h <;> cases h

end KM.Props
