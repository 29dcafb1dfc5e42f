import Verif.Props.Locks
import Verif.Props.Returns
/-
Property C138: with the mutexes of the store taken into account, a scheduler that is fair to goroutines that do not wait for a mutex is fair. What has been proved of endless runs in which each
access to the data is one action therefore holds of the mock with its mutexes.
-/
namespace KM.Props
open KM KM.Spec

/-- A goroutine that works on the store, among all goroutines. -/
def goroutineOf : Tid → Goroutine
  | .conn c => .conn c
  | .api i => .api i

theorem goroutineOf_inj {t u : Tid} (h : goroutineOf t = goroutineOf u) : t = u := by
  cases t <;> cases u <;> first | (cases h; rfl) | cases h

theorem _root_.KM.SEv.by_of {e : SEv} {t : Tid} : e.by = some t ↔ e.of = some (goroutineOf t) := by
  cases t <;> rcases e with (_ | _ | _ | _) | _ | _ | _ | _ <;> simp [SEv.by, SEv.of, goroutineOf]

/-- The mock with the store in memory, and its connections. -/
structure FineNet where
  fine : Fine
  links : Nat → Link

def FineNet.new (sv : Server) (clock : Int) : FineNet := ⟨Fine.new sv clock, fun _ => ⟨[], [], false⟩⟩

/-- What happens. -/
inductive FNEv where
  /-- something in the mock -/
  | mock (e : FEv)
  /-- the client of connection `c` sends bytes -/
  | send (c : Nat) (b : Bytes)
  /-- the client of connection `c` receives bytes -/
  | receive (c : Nat) (b : Bytes)

/-- One step of the mock with the store in memory and its clients: as `Net.Step`, with the functions of the store as sequences of single accesses. -/
inductive FineNet.Step : FineNet → FNEv → FineNet → Prop where
  | sys {n : FineNet} {e : SEv} {F : Fine} {L : Nat → Link} (h : Fine.Step n.fine (.sys e) F) (hl : Carries e n.links L) : Step n (.mock (.sys e)) ⟨F, L⟩
  | mem {n : FineNet} {t : Tid} {F : Fine} (h : Fine.Step n.fine (.mem t) F) : Step n (.mock (.mem t)) ⟨F, n.links⟩
  | send {n : FineNet} (c : Nat) (b : Bytes) : Step n (.send c b) { n with links := setLink n.links c { n.links c with up := (n.links c).up ++ b } }
  | receive {n : FineNet} {c : Nat} {b rest : Bytes} (h : (n.links c).down = b ++ rest) :
      Step n (.receive c b) { n with links := setLink n.links c { n.links c with down := rest } }

/-- The goroutine that made a step. -/
def FNEv.of : FNEv → Option Goroutine
  | .mock (.sys e) => e.of
  | .mock (.mem t) => some (goroutineOf t)
  | _ => none

/-- The goroutine has called `Lock` on a mutex of the store that somebody holds. -/
def _root_.KM.Fine.waitsFor (F : Fine) (t : Tid) (k : Lock) : Prop :=
  ∃ a f, F.sys.prog t = some (.act a f) ∧ (F.loc t).pc = .out ∧ a.lock (F.loc t) = some k ∧ F.mem.locks k ≠ none

/-- The goroutine waits for a mutex of the store. Accept loops use none. -/
def _root_.KM.Fine.waits (F : Fine) : Goroutine → Prop
  | .api i => ∃ k, F.waitsFor (.api i) k
  | .conn c => ∃ k, F.waitsFor (.conn c) k
  | .run _ => False

theorem _root_.KM.Fine.waits_tid {F : Fine} {t : Tid} : F.waits (goroutineOf t) ↔ ∃ k, F.waitsFor t k := by cases t <;> exact Iff.rfl

/-- An endless run of the mock with its mutexes and its clients. The scheduler is fair to the goroutines in `S`: one that again and again has something to do and does not wait (for `km.mu`, a wait
group, a connection, or a mutex of the store) makes a step again and again. (That `Lock` is fair among those that wait for the mutex: Go gives a mutex to the goroutine that has waited for more than a
millisecond.) -/
structure FineEndless (sv : Server) (clock : Int) (ns : Nat → FineNet) (es : Nat → FNEv) (S : Goroutine → Prop := fun _ => True) : Prop where
  first : ns 0 = FineNet.new sv clock
  step : ∀ n, FineNet.Step (ns n) (es n) (ns (n + 1))
  fair : ∀ t, S t → (∀ n, ∃ m, n ≤ m ∧ (ns m).fine.sys.ready t ∧ ¬ (ns m).fine.waits t) → ∀ n, ∃ m, n ≤ m ∧ (es m).of = some t

/-- The mock with the functions of the store as single actions: the maps, records and committed offsets are those in memory. -/
def FineNet.coarse (n : FineNet) : Net := ⟨n.fine.load, n.links⟩

/-- What is left of a step: an access that does not settle the result of an action is none (no time passes). -/
def FNEv.coarse : FNEv → NEv
  | .mock (.sys e) => .mock e
  | .mock (.mem _) => .mock (.tick 0)
  | .send c b => .send c b
  | .receive c b => .receive c b

/-! ### The steps of others -/

theorem _root_.KM.Fine.prog_load (F : Fine) (t : Tid) : F.load.prog t = F.sys.prog t := rfl

theorem _root_.KM.Fine.ready_load (F : Fine) (t : Goroutine) : F.load.ready t ↔ F.sys.ready t := by
  cases t with
  | api i =>
    show ((F.sys.api i).ready F.load) ↔ ((F.sys.api i).ready F.sys)
    cases F.sys.api i with
    | start k _ => cases k <;> exact Iff.rfl
    | stop k _ => rcases k with _ | _ | _ | _ | _ <;> exact Iff.rfl
    | wait x _ => cases x <;> exact Iff.rfl
    | restartInit x => cases x <;> exact Iff.rfl
    | _ => exact Iff.rfl
  | run g =>
    show (∃ r, F.sys.runs[g]? = some r ∧ r.pc.ready F.load g) ↔ (∃ r, F.sys.runs[g]? = some r ∧ r.pc.ready F.sys g)
    exact exists_congr fun r => and_congr_right fun _ => by cases r.pc <;> exact Iff.rfl
  | conn c =>
    show (∃ r, F.sys.conns[c]? = some r ∧ r.pc.ready F.load) ↔ (∃ r, F.sys.conns[c]? = some r ∧ r.pc.ready F.sys)
    refine exists_congr fun r => and_congr_right fun _ => ?_
    cases r.pc with
    | oc k => cases k <;> exact Iff.rfl
    | _ => exact Iff.rfl

/-- A goroutine that serves a request or is in a function that works on the data is ready, when mutexes are left out. -/
theorem _root_.KM.Sys.ready_prog {s : Sys} {t : Tid} {p : Prog Unit} (h : s.prog t = some p) : s.ready (goroutineOf t) := by
  cases t with
  | api i =>
    show (s.api i).ready s
    rw [Sys.prog_api.1 h]
    trivial
  | conn c =>
    obtain ⟨k, h1, h2⟩ := Sys.prog_conn.1 h
    exact ⟨k, h1, by rw [h2]; trivial⟩

theorem _root_.KM.Fine.Step.prog_other {F F' : Fine} {e : FEv} (hF : F.WF) (h : Fine.Step F e F') {t : Tid} (he : e.by ≠ some t) {p : Prog Unit} (hp : F.sys.prog t = some p) : F'.sys.prog t = some p := by
  have hr := (h.refines hF).2
  cases e with
  | mem u =>
    have : F'.load = F.load := hr
    rw [← Fine.prog_load, this]
    exact hp
  | sys e =>
    cases (show Sys.Step F.load e F'.load from hr).progNext t with
    | same h1 => exact h1.trans hp
    | gone hb => exact absurd hb he
    | begun p' h0 => rw [Fine.prog_load, hp] at h0; cases h0
    | unroll _ _ _ hb => exact absurd hb he
    | act _ _ _ hb => exact absurd hb he

/-- How far a goroutine is with a function of the store; each access but the one that settles the result brings it closer to that. -/
def rank : LockPc → Nat
  | .leave _ => 4
  | .out => 3
  | .inside _ none => 2
  | .inside _ (some _) => 1

theorem rank_lt {F F' : Fine} {t : Tid} (h : Fine.Step F (.mem t) F') : rank (F'.loc t).pc < rank (F.loc t).pc := by
  have go : ∀ {a : Act} {m : Mem} {l : Locals}, micro t a F.mem (F.loc t) = .go m l → rank (F.setLoc t l t).pc < rank (F.loc t).pc := by
    intro a m l h
    obtain ⟨_, _, k, s, h1, _, _, h2⟩ := micro_go h
    simp only [Fine.setLoc, if_pos, h1]
    rcases h2 with ⟨h2, rfl⟩ | ⟨h2, h3⟩ <;> rw [h2]
    · exact (by decide : 2 < 3)
    · cases s with
      | none => exact absurd rfl h3
      | some s => exact (by decide : 1 < 2)
  cases h with
  | connGo hc hp h => exact go h
  | callGo hp h => exact go h
  | unlock h =>
    show rank (F.setLoc t _ t).pc < _
    simp only [Fine.setLoc, if_pos, h]
    exact (by decide : 3 < 4)

section
variable {sv : Server} {clock : Int} {ns : Nat → FineNet} {es : Nat → FNEv} {S : Goroutine → Prop}

/-- A step of the mock, or one of a client. -/
theorem FineNet.Step.fine {n n' : FineNet} {e : FNEv} (h : FineNet.Step n e n') :
    (∃ f, e = .mock f ∧ Fine.Step n.fine f n'.fine ∧ ∀ t, f.by = some t ↔ e.of = some (goroutineOf t)) ∨ (n'.fine = n.fine ∧ e.of = none) := by
  cases h with
  | sys h => exact .inl ⟨_, rfl, h, fun t => SEv.by_of⟩
  | mem h =>
    refine .inl ⟨_, rfl, h, fun t => ?_⟩
    simp only [FEv.by, FNEv.of, Option.some.injEq]
    constructor
    · intro e; rw [e]
    · exact goroutineOf_inj
  | send => exact .inr ⟨rfl, rfl⟩
  | receive => exact .inr ⟨rfl, rfl⟩

theorem FineEndless.inv (h : FineEndless sv clock ns es S) (n : Nat) : (ns n).fine.WF ∧ (ns n).fine.Live := by
  induction n with
  | zero => rw [h.first]; exact ⟨Fine.new_wf sv clock, Fine.new_live sv clock⟩
  | succ n ih =>
    rcases (h.step n).fine with ⟨f, _, h1, _⟩ | ⟨h1, _⟩
    · exact ⟨(h1.refines ih.1).1, h1.live ih.1 ih.2⟩
    · rw [h1]; exact ih

/-- What others do does not change where a goroutine is. -/
theorem FineEndless.other (h : FineEndless sv clock ns es S) {n : Nat} {t : Tid} (he : (es n).of ≠ some (goroutineOf t)) :
    (ns (n + 1)).fine.loc t = (ns n).fine.loc t ∧ (∀ k, (ns (n + 1)).fine.mem.locks k = some t ↔ (ns n).fine.mem.locks k = some t) ∧
    ∀ p, (ns n).fine.sys.prog t = some p → (ns (n + 1)).fine.sys.prog t = some p := by
  rcases (h.step n).fine with ⟨f, _, h1, h2⟩ | ⟨h1, _⟩
  · have hb : f.by ≠ some t := fun e => he ((h2 t).1 e)
    have := (h1.ext (h.inv n).1).1 t hb
    exact ⟨this.1, this.2, fun p hp => h1.prog_other (h.inv n).1 hb hp⟩
  · rw [h1]; exact ⟨rfl, fun _ => Iff.rfl, fun _ h => h⟩

theorem FineEndless.others (h : FineEndless sv clock ns es S) {n m : Nat} {t : Tid} (hm : n ≤ m) (he : ∀ j, n ≤ j → j < m → (es j).of ≠ some (goroutineOf t)) :
    (ns m).fine.loc t = (ns n).fine.loc t ∧ (∀ k, (ns m).fine.mem.locks k = some t ↔ (ns n).fine.mem.locks k = some t) ∧
    ∀ p, (ns n).fine.sys.prog t = some p → (ns m).fine.sys.prog t = some p := by
  induction hm with
  | refl => exact ⟨rfl, fun _ => Iff.rfl, fun _ h => h⟩
  | @step m hm ih =>
    obtain ⟨a1, a2, a3⟩ := ih fun j x y => he j x (by omega)
    obtain ⟨b1, b2, b3⟩ := h.other (he m hm (by omega))
    exact ⟨b1.trans a1, fun k => (b2 k).trans (a2 k), fun p hp => b3 p (a3 p hp)⟩

theorem first_of {P : Nat → Prop} {n : Nat} (h : ∃ m, n ≤ m ∧ P m) : ∃ m, n ≤ m ∧ P m ∧ ∀ j, n ≤ j → j < m → ¬ P j := by
  obtain ⟨m, h1, h2⟩ := h
  induction m using Nat.strongRecOn with
  | ind m ih =>
    by_cases hx : ∃ j, n ≤ j ∧ j < m ∧ P j
    · obtain ⟨j, a, b, c⟩ := hx
      exact ih j b a c
    · exact ⟨m, h1, h2, fun j a b c => hx ⟨j, a, b, c⟩⟩

/-! ### Mutexes are given back -/

/-- **C138**, mutexes: under a fair scheduler every mutex of the store is free again and again. -/
theorem C138_free (h : FineEndless sv clock ns es S) (k : Lock) (n : Nat) (hc : ∀ c, S (.conn c) := by first | exact fun _ => trivial | assumption)
    (ha : ∀ i, S (.api i) := by first | exact fun _ => trivial | assumption) : ∃ m, n ≤ m ∧ (ns m).fine.mem.locks k = none := by
  have hS : ∀ t : Tid, S (goroutineOf t) := fun t => by cases t; exacts [hc _, ha _]
  have key : ∀ (d n : Nat) (t : Tid), (ns n).fine.mem.locks k = some t → ((ns n).fine.loc t).pc.left ≤ d → ∃ m, n ≤ m ∧ (ns m).fine.mem.locks k = none := by
    intro d
    induction d with
    | zero =>
      intro n t hk hd
      rcases (h.inv n).1.owner k t hk with h1 | ⟨_ | s, h1⟩ <;> rw [h1] at hd <;> cases hd
    | succ d ih =>
      intro n t hk hd
      have ex : ∃ m, n ≤ m ∧ (es m).of = some (goroutineOf t) := by
        refine Classical.byContradiction fun hno => ?_
        have hno : ∀ m, n ≤ m → (es m).of ≠ some (goroutineOf t) := fun m a b => hno ⟨m, a, b⟩
        refine absurd (h.fair (goroutineOf t) (hS t) (fun m => ?_) n) fun ⟨m, a, b⟩ => hno m a b
        refine ⟨max n m, Nat.le_max_right .., ?_⟩
        have hk' := ((h.others (Nat.le_max_left n m) fun j a _ => hno j a).2.1 k).2 hk
        obtain ⟨w1, w2⟩ := h.inv (max n m)
        have hout : ((ns (max n m)).fine.loc t).pc ≠ .out := by
          intro h1
          rcases w1.owner k t hk' with h2 | ⟨s, h2⟩ <;> rw [h1] at h2 <;> cases h2
        constructor
        · cases hp : (ns (max n m)).fine.sys.prog t with
          | none => exact absurd ((w2 t).idle hp) hout
          | some p => exact Sys.ready_prog hp
        · rw [Fine.waits_tid]
          rintro ⟨_, _, _, _, h3, _⟩
          exact hout h3
      obtain ⟨m, m1, m2, m3⟩ := first_of ex
      obtain ⟨o1, o2, _⟩ := h.others m1 m3
      rcases (h.step m).fine with ⟨f, _, f1, f2⟩ | ⟨_, f1⟩
      · rcases f1.closer (h.inv m).1 ((o2 k).2 hk) ((f2 t).2 m2) with g | ⟨g1, g2⟩
        · exact ⟨m + 1, by omega, g⟩
        · rw [o1] at g2
          obtain ⟨m', x, y⟩ := ih (m + 1) t g1 (by omega)
          exact ⟨m', by omega, y⟩
      · rw [f1] at m2; cases m2
  cases hl : (ns n).fine.mem.locks k with
  | none => exact ⟨n, Nat.le_refl _, hl⟩
  | some t => exact key _ n t hl (Nat.le_refl _)

/-! ### Fairness -/

/-- A goroutine that settles no more actions makes no more steps. -/
theorem FineEndless.quiet (h : FineEndless sv clock ns es S) {t : Tid} (d n : Nat) (hd : rank ((ns n).fine.loc t).pc ≤ d) (hno : ∀ m, n ≤ m → (inMock (es m).coarse).of ≠ some (goroutineOf t)) :
    ∃ n', n ≤ n' ∧ ∀ m, n' ≤ m → (es m).of ≠ some (goroutineOf t) := by
  induction d generalizing n with
  | zero => rcases hp : ((ns n).fine.loc t).pc with _ | ⟨_, _ | _⟩ | _ <;> rw [hp] at hd <;> cases hd
  | succ d ih =>
    by_cases ex : ∃ m, n ≤ m ∧ (es m).of = some (goroutineOf t)
    · obtain ⟨m, m1, m2, m3⟩ := first_of ex
      have hs := h.step m
      obtain ⟨o1, _⟩ := h.others m1 m3
      have hlt : rank ((ns (m + 1)).fine.loc t).pc < rank ((ns m).fine.loc t).pc := by
        rcases he : es m with (e | u) | _ | _ <;> rw [he] at m2
        · exact absurd (show (inMock (es m).coarse).of = _ by rw [he]; exact m2) (hno m m1)
        · obtain rfl : u = t := goroutineOf_inj (Option.some.inj m2)
          rw [he] at hs
          generalize hx : ns (m + 1) = x at hs
          cases hs with
          | mem hf => exact rank_lt hf
        · cases m2
        · cases m2
      rw [o1] at hlt
      obtain ⟨n', x, y⟩ := ih (m + 1) (by omega) fun j hj => hno j (by omega)
      exact ⟨n', by omega, y⟩
    · exact ⟨n, Nat.le_refl _, fun m a b => ex ⟨m, a, b⟩⟩

theorem coarse_step {n n' : FineNet} {e : FNEv} (hF : n.fine.WF) (h : FineNet.Step n e n') : Net.Step n.coarse e.coarse n'.coarse := by
  cases h with
  | sys h hl => exact .mock (h.refines hF).2 hl
  | mem h =>
    have hr := (h.refines hF).2
    refine .mock ?_ rfl
    have hr : _ = n.fine.load := hr
    rw [hr]
    have := Sys.Step.tick (s := n.fine.load) 0
    rwa [show ({ n.fine.load with clock := n.fine.load.clock + ((0 : Nat) : Int) } : Sys) = n.fine.load by simp] at this
  | send c b => exact .send c b
  | receive h => exact .receive h

inductive FineNet.Run : FineNet → List FNEv → FineNet → Prop where
  | nil (n : FineNet) : Run n [] n
  | cons {n n1 n2 : FineNet} {e : FNEv} {es : List FNEv} (h : Step n e n1) (hs : Run n1 es n2) : Run n (e :: es) n2

theorem FineNet.Run.coarse {n n' : FineNet} {tr : List FNEv} (h : FineNet.Run n tr n') (hF : n.fine.WF) : n'.fine.WF ∧ Net.Run n.coarse (tr.map FNEv.coarse) n'.coarse := by
  induction h with
  | nil => exact ⟨hF, .nil _⟩
  | @cons n n1 n2 e es h hs ih =>
    have hF1 : n1.fine.WF := by
      rcases h.fine with ⟨f, _, h1, _⟩ | ⟨h1, _⟩
      · exact (h1.refines hF).1
      · rw [h1]; exact hF
    exact ⟨(ih hF1).1, .cons (coarse_step hF h) (ih hF1).2⟩

/-- **C138**, what clients and callers see: every run of the mock with its mutexes and clients is, access by access left out, a run in which each access to the data is one action. The same bytes are sent
and received, the same calls are made. -/
theorem C138_seen {sv : Server} {clock : Int} {tr : List FNEv} {n : FineNet} (h : FineNet.Run (FineNet.new sv clock) tr n) :
    Net.Run (Net.new sv clock) (tr.map FNEv.coarse) n.coarse ∧ (∀ e ∈ tr, ∀ c b, (e.coarse = .send c b ↔ e = .send c b) ∧ (e.coarse = .receive c b ↔ e = .receive c b)) ∧
      ∀ e ∈ tr, ∀ i c, e.coarse = .mock (.life (.api i c)) ↔ e = .mock (.sys (.life (.api i c))) := by
  refine ⟨(h.coarse (Fine.new_wf sv clock)).2, fun e _ c b => ?_, fun e _ i c => ?_⟩
  · rcases e with (_ | _) | _ | _ <;> simp [FNEv.coarse]
  · rcases e with (_ | _) | _ | _ <;> simp [FNEv.coarse]

/-- **C138**: an endless run of the mock with its mutexes, under a scheduler that is fair to goroutines that do not wait for a mutex, is an endless run of the mock in which each access to the data is one
action, under a fair scheduler: every goroutine that again and again has something to do also gets the mutexes it needs. So all that is said of such runs (C109, C124, C136, C137, …) holds with
mutexes as well. -/
theorem C138 (h : FineEndless sv clock ns es S) (hc : ∀ c, S (.conn c) := by first | exact fun _ => trivial | assumption)
    (ha : ∀ i, S (.api i) := by first | exact fun _ => trivial | assumption) : NetEndless sv clock (fun n => (ns n).coarse) (fun n => (es n).coarse) S where
  first := by
    show FineNet.coarse (ns 0) = _
    rw [h.first]
    rfl
  step n := coarse_step (h.inv n).1 (h.step n)
  fair := by
    have tid : ∀ t : Tid, S (goroutineOf t) → (∀ n, ∃ m, n ≤ m ∧ (ns m).fine.load.ready (goroutineOf t)) → ∀ n, ∃ m, n ≤ m ∧ (inMock (es m).coarse).of = some (goroutineOf t) := by
      intro t hS hr n
      refine Classical.byContradiction fun hno => ?_
      obtain ⟨n', n1, n2⟩ := h.quiet _ n (Nat.le_refl _) fun m a b => hno ⟨m, a, b⟩
      refine absurd (h.fair (goroutineOf t) hS (fun j => ?_) n') fun ⟨m, a, b⟩ => n2 m a b
      obtain ⟨m, m1, m2⟩ := hr (max n' j)
      have hn' : n' ≤ m := Nat.le_trans (Nat.le_max_left ..) m1
      have hj : j ≤ m := Nat.le_trans (Nat.le_max_right ..) m1
      by_cases hw : (ns m).fine.waits (goroutineOf t)
      · obtain ⟨k, a, f, w1, w2, w3, w4⟩ := Fine.waits_tid.1 hw
        obtain ⟨m', x1, x2⟩ := C138_free h k m hc ha
        obtain ⟨o1, _, o3⟩ := h.others x1 fun i y _ => n2 i (by omega)
        refine ⟨m', by omega, Sys.ready_prog (o3 _ w1), ?_⟩
        rw [Fine.waits_tid]
        rintro ⟨k', a', f', y1, y2, y3, y4⟩
        rw [o3 _ w1] at y1
        cases y1
        rw [o1, w3] at y3
        cases y3
        exact y4 x2
      · exact ⟨m, hj, (Fine.ready_load _ _).1 m2, hw⟩
    intro t hS hr
    cases t with
    | api i => exact tid (.api i) hS hr
    | conn c => exact tid (.conn c) hS hr
    | run g =>
      intro n
      obtain ⟨m, m1, m2⟩ := h.fair (.run g) hS (fun j => by
        obtain ⟨m, a, b⟩ := hr j
        exact ⟨m, a, (Fine.ready_load _ _).1 b, nofun⟩) n
      refine ⟨m, m1, ?_⟩
      rcases he : es m with (e | u) | _ | _ <;> rw [he] at m2
      · exact m2
      · cases u <;> cases m2
      · cases m2
      · cases m2

/-- **C138**, for C137: with the mutexes taken into account, a call of SimplePost, ExtendedPost, CreatePartitionTopics or SetConsumerGroupOffset returns, and when it has returned the caller holds no mutex
of the store. -/
theorem C138_returns (h : FineEndless sv clock ns es S) {i n b : Nat} {c : Call} (hi : (ns n).fine.sys.api i = .idle) (he : es n = .mock (.sys (.life (.api i c)))) (hb : mostOf c = some b)
    (hc : ∀ c, S (.conn c) := by first | exact fun _ => trivial | assumption) (ha : ∀ i, S (.api i) := by first | exact fun _ => trivial | assumption) :
    ∃ m, n < m ∧ (ns m).fine.sys.api i = .idle ∧ (∀ j, n < j → j < m → busy ((ns j).fine.sys.api i)) ∧ ∀ k, (ns m).fine.mem.locks k ≠ some (.api i) := by
  obtain ⟨m, m1, m2, m3⟩ := C137 (C138 h hc ha).endless (i := i) (n := n) (c := c) ⟨hi, by show inMock (es n).coarse = _; rw [he]; rfl⟩ hb (ha i)
  refine ⟨m, m1, m2, m3, fun k hk => ?_⟩
  obtain ⟨w1, w2⟩ := h.inv m
  have : (ns m).fine.sys.prog (.api i) = none := by
    have m2 : (ns m).fine.sys.api i = .idle := m2
    simp only [Sys.prog, m2]
  have := (w2 (.api i)).idle this
  rcases w1.owner k _ hk with h1 | ⟨s, h1⟩ <;> rw [this] at h1 <;> cases h1

end

end KM.Props
