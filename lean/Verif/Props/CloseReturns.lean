import Verif.Props.CloseClient
import Verif.Serve
/-
C86: `Close` of a client returns.
-/
set_option linter.unusedTactic false
namespace KM.Props
open Spec

variable {sv : Server} {w : World}

/-- The event is a step of the client's goroutine. -/
def CEv.ofClient : CEv → Bool
  | .own _ | .round | .ended => true
  | _ => false

/-- An endless run of a client with a fair scheduler: the client's goroutine, unless it has ended or panicked, and a caller who has begun with `Close`, unless they wait or have ended, take
a step sooner or later. Others may always take steps, so every run can be continued for ever. -/
structure CEndless (sv : Server) (w : World) (ss : Nat → CSys) (es : Nat → CEv) : Prop where
  first : ss 0 = CSys.new sv w
  step : ∀ n, CSys.Step (ss n) (es n) (ss (n + 1))
  client : ∀ n p, (ss n).prog = some p → p ≠ .panic → ∃ m, n ≤ m ∧ CEv.ofClient (es m) = true
  close : ∀ i n, (ss n).callers i ≠ .store → (ss n).callerStep i ≠ none → ∃ m, n ≤ m ∧ es m = .caller i

/-! ### Where the client's goroutine is -/

/-- What follows when the processing of a message has ended. -/
def afterRequest (sv : Server) (inb m : Bytes) : DRes → Prog Unit
  | .err => .panic
  | .done => .loop (inb.drop (4 + m.length)) (handleBody sv) .ret

/-- What is left of the program, and the number of requests in progress. -/
inductive Phase (sv : Server) : Prog Unit → Nat → Prop where
  | head (inb : Bytes) : Phase sv (.loop inb (handleBody sv) .ret) 0
  | ask {inb : Bytes} {k : Bool → Prog Unit} (h1 : k true = .act .close fun _ => .ret ()) {kr : RecvResult → Prog Unit} (h2 : k false = .act .recv kr)
      (h3 : kr .timeout = .loop inb (handleBody sv) .ret) (h4 : kr .closed = .ret ()) (h5 : kr .failed = .panic)
      (h6 : ∀ b, kr (.data b) = .act .isStopping fun s => .loop (if s then inb else inb ++ b) (handleBody sv) .ret) : Phase sv (.act .isDone k) 0
  | close : Phase sv (.act .close fun _ => .ret ()) 0
  | recv {inb : Bytes} {kr : RecvResult → Prog Unit} (h3 : kr .timeout = .loop inb (handleBody sv) .ret) (h4 : kr .closed = .ret ()) (h5 : kr .failed = .panic)
      (h6 : ∀ b, kr (.data b) = .act .isStopping fun s => .loop (if s then inb else inb ++ b) (handleBody sv) .ret) : Phase sv (.act .recv kr) 0
  | stopping (f : Bool → Bytes) : Phase sv (.act .isStopping fun s => .loop (f s) (handleBody sv) .ret) 0
  | over : Phase sv (.ret ()) 0
  | panic (n : Nat) : Phase sv .panic n
  | begin {inb m : Bytes} (hm : getMessage inb = .ready m) :
      Phase sv (.act (.reqBegin m) fun _ => (dispatcher sv ⟨m⟩ m.length).bind fun res => .act .reqEnd fun _ => afterRequest sv inb m res) 0
  | serving {inb m : Bytes} (hm : getMessage inb = .ready m) {x : Prog DRes} (hx : x.Only Inner) :
      Phase sv (x.bind fun res => .act .reqEnd fun _ => afterRequest sv inb m res) 1

/-- The number of requests in progress after an action. -/
def counted (n : Nat) : Act → Nat
  | .reqBegin _ => n + 1
  | .reqEnd => n - 1
  | _ => n

theorem counted_inner {a : Act} (h : Inner a) (n : Nat) : counted n a = n := by cases a <;> first | rfl | cases h

theorem phase_after (inb m : Bytes) (res : DRes) : Phase sv (afterRequest sv inb m res) 0 := by
  cases res
  · exact .panic 0
  · exact .head _

theorem phase_act {p : Prog Unit} {n : Nat} (h : Phase sv p n) {a : Act} {f : a.Resp → Prog Unit} (hp : p = .act a f) (r : a.Resp) : Phase sv (f r) (counted n a) := by
  cases h with
  | head => cases hp
  | @ask inb k h1 kr h2 h3 h4 h5 h6 =>
    cases hp
    cases r
    · rw [h2]; exact .recv h3 h4 h5 h6
    · rw [h1]; exact .close
  | close => cases hp; exact .over
  | @recv inb kr h3 h4 h5 h6 =>
    cases hp
    cases r with
    | data b => rw [h6]; exact .stopping _
    | timeout => rw [h3]; exact .head _
    | closed => rw [h4]; exact .over
    | failed => rw [h5]; exact .panic _
  | stopping => cases hp; exact .head _
  | over => cases hp
  | panic => cases hp
  | begin hm => cases hp; exact .serving hm (dispatcher_onlyInner ..)
  | @serving inb m hm x hx =>
    cases x with
    | ret res => cases hp; exact phase_after inb m res
    | panic => cases hp
    | act b k =>
      cases hp
      rw [counted_inner hx.1]
      exact .serving hm (hx.2 r)
    | loop => cases hp

theorem unroll_cases (sv : Server) (inb : Bytes) : Prog.unroll inb (handleBody sv) .ret = .panic ∨
    (∃ (k : Bool → Prog Unit) (kr : RecvResult → Prog Unit), Prog.unroll inb (handleBody sv) .ret = .act .isDone k ∧ k true = .act .close (fun _ => .ret ()) ∧ k false = .act .recv kr ∧
      kr .timeout = .loop inb (handleBody sv) .ret ∧ kr .closed = .ret () ∧ kr .failed = .panic ∧
      ∀ b, kr (.data b) = .act .isStopping fun s => .loop (if s then inb else inb ++ b) (handleBody sv) .ret) ∨
    ∃ m, getMessage inb = .ready m ∧ Prog.unroll inb (handleBody sv) .ret =
      .act (.reqBegin m) fun _ => (dispatcher sv ⟨m⟩ m.length).bind fun res => .act .reqEnd fun _ => afterRequest sv inb m res := by
  unfold Prog.unroll
  generalize hk : (fun x : Bytes ⊕ Unit => match x with
    | .inl s' => Prog.loop s' (handleBody sv) .ret
    | .inr b => .ret b) = k
  unfold handleBody
  cases hm : getMessage inb with
  | panic => exact .inl rfl
  | none =>
    subst hk
    exact .inr (.inl ⟨_, _, rfl, rfl, rfl, rfl, rfl, rfl, fun _ => rfl⟩)
  | ready m =>
    refine .inr (.inr ⟨m, rfl, ?_⟩)
    simp only [Prog.bind_act, Prog.bind_assoc]
    congr 1; funext _; congr 1; funext res; congr 1; funext _
    subst hk
    cases res <;> rfl

theorem phase_unroll (inb : Bytes) : Phase sv (Prog.unroll inb (handleBody sv) .ret) 0 := by
  obtain h | ⟨k, kr, h, h1, h2, h3, h4, h5, h6⟩ | ⟨m, hm, h⟩ := unroll_cases sv inb
  · rw [h]; exact .panic 0
  · rw [h]; exact .ask h1 h2 h3 h4 h5 h6
  · rw [h]; exact .begin hm

theorem phase_loop {p : Prog Unit} {n : Nat} (h : Phase sv p n) {σ β : Type} {x : σ} {body : σ → Prog (σ ⊕ β)} {f : β → Prog Unit} (hp : p = .loop x body f) :
    Phase sv (Prog.unroll x body f) n := by
  cases h with
  | head inb => cases hp; exact phase_unroll inb
  | @serving inb m hm y hx =>
    cases y with
    | ret res => cases hp
    | panic => cases hp
    | act b k => cases hp
    | loop s b k =>
      cases hp
      have := Phase.serving (sv := sv) hm (x := Prog.unroll _ _ k) (Own.only (.unroll (.refl _)) hx).1
      rwa [unroll_bind] at this
  | _ => cases hp

theorem CSys.effect_requests (s : CSys) (a : Act) : (s.effect a).requests = counted s.requests a := by cases a <;> rfl

theorem callerStep_same {s s' : CSys} {i : Nat} (h : s.callerStep i = some s') : s'.prog = s.prog ∧ s'.requests = s.requests ∧ (s.isOpen = false → s'.isOpen = false) ∧
    ∀ j, j ≠ i → s'.callers j = s.callers j := by
  simp only [CSys.callerStep] at h
  split at h
  all_goals first
    | (cases h; done)
    | (cases h; exact ⟨rfl, rfl, fun h => (by first | exact h | rfl), fun j hj => if_neg hj⟩)

theorem step_phase {s s' : CSys} {e : CEv} (h : CSys.Step s e s') (hp : ∀ p, s.prog = some p → Phase sv p s.requests) : ∀ p, s'.prog = some p → Phase sv p s'.requests := by
  intro p hp'
  cases h with
  | @own a f r w hp0 hr ha =>
    cases hp'
    show Phase sv _ (s.effect a).requests
    rw [CSys.effect_requests]
    exact phase_act (hp _ hp0) rfl r
  | round hp0 =>
    cases hp'
    exact phase_loop (hp _ hp0) rfl
  | ended => cases hp'
  | caller hc =>
    obtain ⟨e1, e2, _⟩ := callerStep_same hc
    rw [e1] at hp'
    rw [e2]
    exact hp p hp'
  | env => exact hp p hp'

theorem client_idle {s s' : CSys} {e : CEv} (h : CSys.Step s e s') (he : CEv.ofClient e = false) : s'.prog = s.prog ∧ s'.requests = s.requests := by
  cases h with
  | own | round | ended => cases he
  | caller hc => exact ⟨(callerStep_same hc).1, (callerStep_same hc).2.1⟩
  | env => exact ⟨rfl, rfl⟩

theorem step_shut {s s' : CSys} {e : CEv} (h : CSys.Step s e s') (hs : s.isOpen = false) : s'.isOpen = false := by
  cases h with
  | @own a f r w hp0 hr ha =>
    show (s.effect a).isOpen = false
    cases a <;> first | exact hs | rfl
  | caller hc => exact (callerStep_same hc).2.2.1 hs
  | _ => exact hs

/-! ### The client's goroutine ends -/

section
variable {ss : Nat → CSys} {es : Nat → CEv}

theorem CEndless.phase (h : CEndless sv w ss es) (n : Nat) : ∀ p, (ss n).prog = some p → Phase sv p (ss n).requests := by
  induction n with
  | zero =>
    intro p hp
    rw [h.first] at hp ⊢
    cases hp
    exact .head _
  | succ n ih => exact step_phase (h.step n) ih

theorem CEndless.shut (h : CEndless sv w ss es) {n m : Nat} (hnm : n ≤ m) (hs : (ss n).isOpen = false) : (ss m).isOpen = false := by
  induction hnm with
  | refl => exact hs
  | step _ ih => exact step_shut (h.step _) ih

theorem CEndless.run (h : CEndless sv w ss es) (n : Nat) : CSys.Run (CSys.new sv w) ((List.range n).map es) (ss n) := by
  induction n with
  | zero => rw [h.first]; exact .nil _
  | succ n ih =>
    rw [List.range_succ, List.map_append]
    exact ih.append (.cons (h.step n) (.nil _))

/-- The next step of the client's goroutine. -/
theorem CEndless.next (h : CEndless sv w ss es) {n : Nat} {p : Prog Unit} (hp : (ss n).prog = some p) (hn : p ≠ .panic) :
    ∃ m, n ≤ m ∧ CEv.ofClient (es m) = true ∧ (ss m).prog = some p ∧ (ss m).requests = (ss n).requests := by
  obtain ⟨m, h1, h2⟩ := h.client n p hp hn
  obtain ⟨d, rfl⟩ := Nat.exists_eq_add_of_le h1
  induction d generalizing n with
  | zero => exact ⟨n, Nat.le_refl _, h2, hp, rfl⟩
  | succ d ih =>
    cases hc : CEv.ofClient (es n) with
    | true => exact ⟨n, Nat.le_refl _, hc, hp, rfl⟩
    | false =>
      obtain ⟨e1, e2⟩ := client_idle (h.step n) hc
      obtain ⟨m, k1, k2, k3, k4⟩ := ih (n := n + 1) (e1.trans hp) (by omega) (by rw [show n + 1 + d = n + (d + 1) by omega]; exact h2)
      exact ⟨m, by omega, k2, k3, k4.trans e2⟩

theorem CEndless.next_act (h : CEndless sv w ss es) {n : Nat} {a : Act} {f : a.Resp → Prog Unit} (hp : (ss n).prog = some (.act a f)) :
    ∃ m r, n ≤ m ∧ (ss m).Allows a r ∧ (ss (m + 1)).prog = some (f r) ∧ (ss (m + 1)).requests = counted (ss n).requests a := by
  obtain ⟨m, h1, h2, h3, h4⟩ := h.next hp nofun
  have hs := h.step m
  generalize es m = e at hs h2
  generalize hx : ss (m + 1) = s' at hs
  cases hs with
  | @own b g r w hp0 hr ha =>
    rw [h3] at hp0
    cases hp0
    refine ⟨m, r, h1, hr, by rw [hx], ?_⟩
    rw [hx, ← h4]
    exact CSys.effect_requests (ss m) a
  | round hp0 => rw [h3] at hp0; cases hp0
  | ended hp0 => rw [h3] at hp0; cases hp0
  | caller => cases h2
  | env => cases h2

theorem CEndless.next_ret (h : CEndless sv w ss es) {n : Nat} (hp : (ss n).prog = some (.ret ())) : ∃ m, n ≤ m ∧ (ss m).prog = none := by
  obtain ⟨m, h1, h2, h3, h4⟩ := h.next hp nofun
  have hs := h.step m
  generalize es m = e at hs h2
  generalize hx : ss (m + 1) = s' at hs
  cases hs with
  | own hp0 => rw [h3] at hp0; cases hp0
  | round hp0 => rw [h3] at hp0; cases hp0
  | ended hp0 => exact ⟨m + 1, by omega, by rw [hx]⟩
  | caller => cases h2
  | env => cases h2

theorem CEndless.next_loop (h : CEndless sv w ss es) {n : Nat} {σ β : Type} {x : σ} {body : σ → Prog (σ ⊕ β)} {f : β → Prog Unit} (hp : (ss n).prog = some (.loop x body f)) :
    ∃ m, n ≤ m ∧ (ss m).prog = some (Prog.unroll x body f) ∧ (ss m).requests = (ss n).requests := by
  obtain ⟨m, h1, h2, h3, h4⟩ := h.next hp nofun
  have hs := h.step m
  generalize es m = e at hs h2
  generalize hx : ss (m + 1) = s' at hs
  cases hs with
  | own hp0 => rw [h3] at hp0; cases hp0
  | round hp0 =>
    rw [h3] at hp0
    cases hp0
    exact ⟨m + 1, by omega, by rw [hx], by rw [hx]; exact h4⟩
  | ended hp0 => rw [h3] at hp0; cases hp0
  | caller => cases h2
  | env => cases h2

/-- A request whose processing ends is followed by the next round. -/
theorem CEndless.request_ends (h : CEndless sv w ss es) (hnp : ∀ m, (ss m).prog ≠ some .panic) {inb m : Bytes} (d : Nat) {n : Nat} {x : Prog DRes}
    (hp : (ss n).prog = some (x.bind fun res => .act .reqEnd fun _ => afterRequest sv inb m res)) (hx : x.Only Inner) (hc : (ss n).requests = 1) (h0 : (ss (n + d)).requests = 0) :
    ∃ k, n ≤ k ∧ (ss k).prog = some (.loop (inb.drop (4 + m.length)) (handleBody sv) .ret) := by
  induction d generalizing n x with
  | zero => rw [Nat.add_zero, hc] at h0; cases h0
  | succ d ih =>
    have again : ∀ y : Prog DRes, (ss (n + 1)).prog = some (y.bind fun res => .act .reqEnd fun _ => afterRequest sv inb m res) → y.Only Inner → (ss (n + 1)).requests = 1 →
        ∃ k, n ≤ k ∧ (ss k).prog = some (.loop (inb.drop (4 + m.length)) (handleBody sv) .ret) := by
      intro y h1 h2 h3
      obtain ⟨k, k1, k2⟩ := ih h1 h2 h3 (by rw [show n + 1 + d = n + (d + 1) by omega]; exact h0)
      exact ⟨k, by omega, k2⟩
    have hs := h.step n
    cases hc' : CEv.ofClient (es n) with
    | false =>
      obtain ⟨e1, e2⟩ := client_idle hs hc'
      exact again x (e1.trans hp) hx (e2.trans hc)
    | true =>
      generalize es n = e at hs hc'
      generalize hz : ss (n + 1) = s' at hs again
      cases hs with
      | @own b g r w hp0 hr ha =>
        rw [hp] at hp0
        cases x with
        | ret res =>
          cases hp0
          cases res with
          | err => exact absurd (by rw [hz]; rfl) (hnp (n + 1))
          | done => exact ⟨n + 1, by omega, by rw [hz]; rfl⟩
        | panic => cases hp0
        | act b k =>
          cases hp0
          refine again (k r) rfl (hx.2 r) ?_
          show ((ss n).effect b).requests = 1
          rw [CSys.effect_requests, counted_inner hx.1, hc]
        | loop => cases hp0
      | round hp0 =>
        rw [hp] at hp0
        cases x with
        | ret => cases hp0
        | panic => cases hp0
        | act => cases hp0
        | loop s b k =>
          cases hp0
          exact again (Prog.unroll _ _ k) (by rw [unroll_bind]) (Own.only (.unroll (.refl _)) hx).1 hc
      | ended hp0 =>
        rw [hp] at hp0
        cases x <;> cases hp0
      | caller => cases hc'
      | env => cases hc'

theorem getMessage_shorter {inb m : Bytes} (h : getMessage inb = .ready m) : (inb.drop (4 + m.length)).length < inb.length := by
  have := getMessage_ready h
  rw [List.length_drop]; omega

/-- When the connection has been closed and every request ends, the client's goroutine ends. -/
theorem CEndless.client_ends (h : CEndless sv w ss es) (hnp : ∀ m, (ss m).prog ≠ some .panic) (hr : ∀ n, ∃ m, n ≤ m ∧ (ss m).requests = 0) {n : Nat} (hs : (ss n).isOpen = false) :
    ∃ m, n ≤ m ∧ (ss m).prog = none := by
  have trans : ∀ {n m : Nat}, n ≤ m → (∃ k, m ≤ k ∧ (ss k).prog = none) → ∃ k, n ≤ k ∧ (ss k).prog = none := fun h1 ⟨k, h2, h3⟩ => ⟨k, Nat.le_trans h1 h2, h3⟩
  have recv : ∀ {n : Nat} {kr : RecvResult → Prog Unit}, (ss n).isOpen = false → (ss n).prog = some (.act .recv kr) → kr .closed = .ret () → ∃ m, n ≤ m ∧ (ss m).prog = none := by
    intro n kr hs hp h4
    obtain ⟨m, r, k1, k2, k3, _⟩ := h.next_act hp
    rw [show r = .closed from k2 (h.shut k1 hs), h4] at k3
    exact trans (by omega) (h.next_ret k3)
  have close : ∀ {n : Nat}, (ss n).prog = some (.act .close fun _ => .ret ()) → ∃ m, n ≤ m ∧ (ss m).prog = none := by
    intro n hp
    obtain ⟨m, r, k1, k2, k3, _⟩ := h.next_act hp
    exact trans (by omega) (h.next_ret k3)
  have serving : ∀ {n : Nat} {inb m : Bytes} {x : Prog DRes}, (ss n).prog = some (x.bind fun res => .act .reqEnd fun _ => afterRequest sv inb m res) → x.Only Inner → (ss n).requests = 1 →
      ∃ k, n ≤ k ∧ (ss k).prog = some (.loop (inb.drop (4 + m.length)) (handleBody sv) .ret) := by
    intro n inb m x hp hx hc
    obtain ⟨m', k1, k2⟩ := hr n
    obtain ⟨d, rfl⟩ := Nat.exists_eq_add_of_le k1
    exact h.request_ends hnp d hp hx hc k2
  have ask : ∀ {n : Nat} {k : Bool → Prog Unit} {kr : RecvResult → Prog Unit}, (ss n).isOpen = false → (ss n).prog = some (.act .isDone k) → k true = .act .close (fun _ => .ret ()) →
      k false = .act .recv kr → kr .closed = .ret () → ∃ m, n ≤ m ∧ (ss m).prog = none := by
    intro n k kr hs hp h1 h2 h4
    obtain ⟨m, r, k1, k2, k3, _⟩ := h.next_act hp
    cases r with
    | false => rw [h2] at k3; exact trans (by omega) (recv (h.shut (by omega) hs) k3 h4)
    | true => rw [h1] at k3; exact trans (by omega) (close k3)
  have body : ∀ {n : Nat} {inb : Bytes}, (∀ m, getMessage inb = .ready m → ∀ {n : Nat}, (ss n).isOpen = false →
      (ss n).prog = some (.loop (inb.drop (4 + m.length)) (handleBody sv) .ret) → ∃ m, n ≤ m ∧ (ss m).prog = none) → (ss n).isOpen = false →
      (ss n).prog = some (.loop inb (handleBody sv) .ret) → ∃ m, n ≤ m ∧ (ss m).prog = none := by
    intro n inb next hs hp
    have hq : (ss n).requests = 0 := by
      have hph := h.phase n _ hp
      generalize hq : (ss n).requests = q at hph
      generalize hp' : Prog.loop inb (handleBody sv) .ret = p at hph
      cases hph with
      | head => rfl
      | panic => cases hp'
      | @serving inb' m hm x hx =>
        cases x with
        | loop s b k =>
          simp only [Prog.bind_loop, Prog.loop.injEq] at hp'
          obtain ⟨_, rfl, _, _, hf⟩ := hp'
          have hf := congrFun (eq_of_heq hf) ()
          generalize k () = y at hf
          cases y <;> cases hf
        | _ => cases hp'
      | _ => rfl
    obtain ⟨m, k1, k2, k3⟩ := h.next_loop hp
    refine trans k1 ?_
    have hs' := h.shut k1 hs
    obtain e | ⟨k, kr, e, h1, h2, h3, h4, h5, h6⟩ | ⟨msg, hm, e⟩ := unroll_cases sv inb
    · rw [e] at k2; exact absurd k2 (hnp m)
    · rw [e] at k2; exact ask hs' k2 h1 h2 h4
    · rw [e] at k2
      obtain ⟨m', r, j1, j2, j3, j4⟩ := h.next_act k2
      rw [k3, hq] at j4
      obtain ⟨k, i1, i2⟩ := serving j3 (dispatcher_onlyInner ..) j4
      exact trans (by omega) (next msg hm (h.shut (by omega) hs') i2)
  have head : ∀ (L : Nat) {n : Nat} {inb : Bytes}, inb.length ≤ L → (ss n).isOpen = false → (ss n).prog = some (.loop inb (handleBody sv) .ret) → ∃ m, n ≤ m ∧ (ss m).prog = none := by
    intro L
    induction L with
    | zero =>
      intro n inb hl hs hp
      exact body (fun m hm _ => by have := getMessage_shorter hm; omega) hs hp
    | succ L ih =>
      intro n inb hl hs hp
      refine body (fun m hm n' hs' hp' => ih ?_ hs' hp') hs hp
      have := getMessage_shorter hm
      omega
  cases hp : (ss n).prog with
  | none => exact ⟨n, Nat.le_refl _, hp⟩
  | some p =>
    have hph := h.phase n p hp
    generalize hq : (ss n).requests = q at hph
    cases hph with
    | head inb => exact head _ (Nat.le_refl _) hs hp
    | ask h1 h2 h3 h4 h5 h6 => exact ask hs hp h1 h2 h4
    | close => exact close hp
    | recv h3 h4 h5 h6 => exact recv hs hp h4
    | stopping f =>
      obtain ⟨m, r, k1, k2, k3, _⟩ := h.next_act hp
      exact trans (by omega) (head _ (Nat.le_refl _) (h.shut (by omega) hs) k3)
    | over => exact h.next_ret hp
    | panic => exact absurd hp (hnp n)
    | begin hm =>
      obtain ⟨m, r, k1, k2, k3, k4⟩ := h.next_act hp
      rw [hq] at k4
      obtain ⟨k, j1, j2⟩ := serving k3 (dispatcher_onlyInner ..) k4
      exact trans (by omega) (head _ (Nat.le_refl _) (h.shut (by omega) hs) j2)
    | serving hm hx =>
      obtain ⟨k, j1, j2⟩ := serving hp hx hq
      exact trans j1 (head _ (Nat.le_refl _) (h.shut j1 hs) j2)

/-! ### Callers of `Close` -/

/-- Whoever sleeps has a reason. -/
def Asleep (s : CSys) : Prop := ∀ i, (s.callers i = .requests .asleep → s.requests ≠ 0) ∧ (s.callers i = .task .asleep → s.prog ≠ none)

theorem asleep_step {s s' : CSys} {e : CEv} (h : CSys.Step s e s') (hs : Asleep s) : Asleep s' := by
  intro i
  have hi := hs i
  cases h with
  | @own a f r w hp' hr ha =>
    refine ⟨?_, nofun⟩
    show (s.effect a).callers i = _ → (s.effect a).requests ≠ 0
    cases a
    case reqBegin m => exact fun _ => Nat.succ_ne_zero _
    case reqEnd =>
      have he : (s.effect .reqEnd).callers = if s.requests = 1 then fun i => CSys.wakeRequests (s.callers i) else s.callers := rfl
      have hq : (s.effect .reqEnd).requests = s.requests - 1 := rfl
      rw [he, hq]
      intro hc
      split at hc
      · dsimp only at hc
        revert hc
        cases s.callers i with
        | requests k => cases k <;> nofun
        | _ => nofun
      · have := hi.1 hc
        omega
    all_goals exact hi.1
  | round hp => exact ⟨hi.1, nofun⟩
  | ended hp =>
    dsimp only
    cases hc : s.callers i with
    | task k => cases k <;> exact ⟨nofun, nofun⟩
    | requests k =>
      refine ⟨fun h => hi.1 (hc.trans h), ?_⟩
      cases k <;> nofun
    | _ => exact ⟨nofun, nofun⟩
  | @caller _ j h =>
    simp only [CSys.callerStep] at h
    split at h
    all_goals first
      | (cases h; done)
      | (cases h
         simp only [CSys.setCaller]
         split
         · first
             | (refine ⟨fun e => ?_, fun e => ?_⟩ <;> (cases e; done))
             | (split
                · refine ⟨fun e => ?_, fun e => ?_⟩ <;> (cases e; done)
                · first
                    | (refine ⟨fun e => ?_, fun e => ?_⟩ <;> (cases e; done))
                    | (refine ⟨fun _ => ‹_›, fun e => ?_⟩; cases e; done)
                    | (refine ⟨fun e => (by cases e), fun _ e => ?_⟩
                       exact absurd (by rw [e]; rfl) ‹¬ s.prog.isNone = true›))
         · exact hi)
  | env => exact hi

theorem CEndless.asleep (h : CEndless sv w ss es) (n : Nat) : Asleep (ss n) := by
  induction n with
  | zero => rw [h.first]; exact fun i => ⟨nofun, nofun⟩
  | succ n ih => exact asleep_step (h.step n) ih

/-- What others do to a caller: they wake those who sleep. -/
theorem caller_idle {s s' : CSys} {e : CEv} {i : Nat} (h : CSys.Step s e s') (he : e ≠ .caller i) :
    s'.callers i = s.callers i ∨ s.callers i = .requests .asleep ∧ s'.callers i = .requests .woken ∨ s.callers i = .task .asleep ∧ s'.callers i = .task .woken := by
  cases h with
  | @own a f r w hp' hr ha =>
    show (s.effect a).callers i = _ ∨ _ ∧ (s.effect a).callers i = _ ∨ _ ∧ (s.effect a).callers i = _
    cases a
    case reqEnd =>
      have he : (s.effect .reqEnd).callers = if s.requests = 1 then fun i => CSys.wakeRequests (s.callers i) else s.callers := rfl
      rw [he]
      split
      · dsimp only
        cases s.callers i with
        | requests k => cases k <;> simp [CSys.wakeRequests]
        | _ => exact .inl rfl
      · exact .inl rfl
    all_goals exact .inl rfl
  | round | env => exact .inl rfl
  | ended =>
    dsimp only
    cases s.callers i with
    | task k => cases k <;> simp [CSys.wakeTask]
    | _ => exact .inl rfl
  | @caller _ j h => exact .inl ((callerStep_same h).2.2.2 i fun e => he (e ▸ rfl))

/-- A caller who does not sleep takes the next step. -/
theorem CEndless.caller (h : CEndless sv w ss es) {i n : Nat} {pc : ClosePc} (hc : (ss n).callers i = pc) (h0 : pc ≠ .store) (h1 : pc ≠ .requests .asleep) (h2 : pc ≠ .task .asleep)
    (h3 : pc ≠ .returned) (h4 : pc ≠ .panicked) : ∃ m, n ≤ m ∧ (ss m).callers i = pc ∧ (ss m).callerStep i = some (ss (m + 1)) := by
  obtain ⟨m, k1, k2⟩ := h.close i n (by rw [hc]; exact h0) (by
    unfold CSys.callerStep
    rw [hc]
    cases pc with
    | requests k => cases k <;> first | exact absurd rfl h1 | nofun
    | task k => cases k <;> first | exact absurd rfl h2 | nofun
    | returned => exact absurd rfl h3
    | panicked => exact absurd rfl h4
    | _ => nofun)
  obtain ⟨d, rfl⟩ := Nat.exists_eq_add_of_le k1
  have hit : ∀ n, es n = .caller i → (ss n).callerStep i = some (ss (n + 1)) := by
    intro n e
    have hs := h.step n
    rw [e] at hs
    generalize ss (n + 1) = s' at hs
    cases hs with
    | caller h => exact h
  induction d generalizing n with
  | zero => exact ⟨n, Nat.le_refl _, hc, hit n k2⟩
  | succ d ih =>
    by_cases he : es n = .caller i
    · exact ⟨n, Nat.le_refl _, hc, hit n he⟩
    · have : (ss (n + 1)).callers i = pc := by
        rcases caller_idle (h.step n) he with e | ⟨e, _⟩ | ⟨e, _⟩
        · exact e.trans hc
        · exact absurd (hc.symm.trans e) h1
        · exact absurd (hc.symm.trans e) h2
      obtain ⟨m, j1, j2⟩ := ih this (by omega) (by rw [show n + 1 + d = n + (d + 1) by omega]; exact k2)
      exact ⟨m, by omega, j2⟩

/-- A caller who no longer sleeps has been woken. -/
theorem CEndless.wakes (h : CEndless sv w ss es) {i n m : Nat} {pc pc' : ClosePc} (hpc : pc = .requests .asleep ∧ pc' = .requests .woken ∨ pc = .task .asleep ∧ pc' = .task .woken)
    (hc : (ss n).callers i = pc) (hm : n ≤ m) (hc' : (ss m).callers i ≠ pc) : ∃ k, n ≤ k ∧ (ss k).callers i = pc' := by
  obtain ⟨d, rfl⟩ := Nat.exists_eq_add_of_le hm
  induction d generalizing n with
  | zero => exact absurd hc hc'
  | succ d ih =>
    have hne : es n ≠ .caller i := by
      intro e
      have hs := h.step n
      rw [e] at hs
      generalize ss (n + 1) = s' at hs
      cases hs with
      | caller h =>
        unfold CSys.callerStep at h
        rw [hc] at h
        rcases hpc with ⟨rfl, _⟩ | ⟨rfl, _⟩ <;> cases h
    rcases caller_idle (h.step n) hne with e | ⟨e, e'⟩ | ⟨e, e'⟩
    · obtain ⟨k, k1, k2⟩ := ih (e.trans hc) (by omega) (by rw [show n + 1 + d = n + (d + 1) by omega]; exact hc')
      exact ⟨k, by omega, k2⟩
    · refine ⟨n + 1, by omega, ?_⟩
      rw [hc] at e
      rcases hpc with ⟨rfl, rfl⟩ | ⟨rfl, rfl⟩
      · exact e'
      · cases e
    · refine ⟨n + 1, by omega, ?_⟩
      rw [hc] at e
      rcases hpc with ⟨rfl, rfl⟩ | ⟨rfl, rfl⟩
      · cases e
      · exact e'

theorem CEndless.gone (h : CEndless sv w ss es) {n m : Nat} (hnm : n ≤ m) (hs : (ss n).prog = none) : (ss m).prog = none := by
  induction hnm with
  | refl => exact hs
  | @step m _ ih =>
    have := h.step m
    generalize ss (m + 1) = s' at this
    generalize es m = e at this
    cases this with
    | own hp => rw [ih] at hp; cases hp
    | round hp => rw [ih] at hp; cases hp
    | ended hp => rfl
    | caller hc => rw [(callerStep_same hc).1]; exact ih
    | env => exact ih

/-- **C86**: with a fair scheduler `Close` returns, if no request lasts for ever. (Unless it panics, or the client's goroutine does.) -/
theorem C86_returns_partial (h : CEndless sv w ss es) {i n : Nat} (hi : (ss n).callers i ≠ .store) (hr : ∀ n, ∃ m, n ≤ m ∧ (ss m).requests = 0) :
    ∃ m, n ≤ m ∧ ((ss m).callers i = .returned ∨ (ss m).callers i = .panicked ∨ (ss m).prog = some .panic) := by
  by_cases hnp : ∃ m, (ss m).prog = some .panic
  · obtain ⟨m, hm⟩ := hnp
    have stays : ∀ d, (ss (m + d)).prog = some .panic := by
      intro d
      induction d with
      | zero => exact hm
      | succ d ih =>
        have := h.step (m + d)
        rw [Nat.add_assoc] at this
        generalize ss (m + (d + 1)) = s' at this
        generalize es (m + d) = e at this
        cases this with
        | own hp => rw [ih] at hp; cases hp
        | round hp => rw [ih] at hp; cases hp
        | ended hp => rw [ih] at hp; cases hp
        | caller hc => rw [(callerStep_same hc).1]; exact ih
        | env => exact ih
    exact ⟨m + n, by omega, .inr (.inr (stays n))⟩
  have hnp : ∀ m, (ss m).prog ≠ some .panic := fun m hm => hnp ⟨m, hm⟩
  have trans : ∀ {n m : Nat}, n ≤ m → (∃ k, m ≤ k ∧ ((ss k).callers i = .returned ∨ (ss k).callers i = .panicked ∨ (ss k).prog = some .panic)) →
      ∃ k, n ≤ k ∧ ((ss k).callers i = .returned ∨ (ss k).callers i = .panicked ∨ (ss k).prog = some .panic) := fun h1 ⟨k, h2, h3⟩ => ⟨k, Nat.le_trans h1 h2, h3⟩
  have set : ∀ {s s' : CSys} {pc : ClosePc}, some (s.setCaller i pc) = some s' → s'.callers i = pc := by
    intro s s' pc e
    cases e
    exact if_pos rfl
  have woken2 : ∀ {n : Nat}, (ss n).callers i = .task .woken → ∃ k, n ≤ k ∧ ((ss k).callers i = .returned ∨ (ss k).callers i = .panicked ∨ (ss k).prog = some .panic) := by
    intro n hc
    obtain ⟨m, k1, k2, k3⟩ := h.caller hc nofun nofun nofun nofun nofun
    simp only [CSys.callerStep, k2] at k3
    exact ⟨m + 1, by omega, .inl (set k3)⟩
  have asleep2 : ∀ {n : Nat}, (ss n).isOpen = false → (ss n).callers i = .task .asleep →
      ∃ k, n ≤ k ∧ ((ss k).callers i = .returned ∨ (ss k).callers i = .panicked ∨ (ss k).prog = some .panic) := by
    intro n hs hc
    obtain ⟨m, k1, k2⟩ := h.client_ends hnp hr hs
    obtain ⟨k, j1, j2⟩ := h.wakes (.inr ⟨rfl, rfl⟩) hc k1 fun e => (h.asleep m i).2 e k2
    exact trans j1 (woken2 j2)
  have enter2 : ∀ {n : Nat}, (ss n).isOpen = false → (ss n).callers i = .task .enter →
      ∃ k, n ≤ k ∧ ((ss k).callers i = .returned ∨ (ss k).callers i = .panicked ∨ (ss k).prog = some .panic) := by
    intro n hs hc
    obtain ⟨m, k1, k2, k3⟩ := h.caller hc nofun nofun nofun nofun nofun
    simp only [CSys.callerStep, k2] at k3
    have := set k3
    split at this
    · exact ⟨m + 1, by omega, .inl this⟩
    · exact trans (by omega) (asleep2 (h.shut (by omega) hs) this)
  have close : ∀ {n : Nat}, (ss n).callers i = .close → ∃ k, n ≤ k ∧ ((ss k).callers i = .returned ∨ (ss k).callers i = .panicked ∨ (ss k).prog = some .panic) := by
    intro n hc
    obtain ⟨m, k1, k2, k3⟩ := h.caller hc nofun nofun nofun nofun nofun
    simp only [CSys.callerStep, k2] at k3
    refine trans (by omega : n ≤ m + 1) (enter2 ?_ (set k3))
    rw [← Option.some.inj k3]; rfl
  have woken1 : ∀ {n : Nat}, (ss n).callers i = .requests .woken → ∃ k, n ≤ k ∧ ((ss k).callers i = .returned ∨ (ss k).callers i = .panicked ∨ (ss k).prog = some .panic) := by
    intro n hc
    obtain ⟨m, k1, k2, k3⟩ := h.caller hc nofun nofun nofun nofun nofun
    simp only [CSys.callerStep, k2] at k3
    have := set k3
    split at this
    · exact trans (by omega) (close this)
    · exact ⟨m + 1, by omega, .inr (.inl this)⟩
  have asleep1 : ∀ {n : Nat}, (ss n).callers i = .requests .asleep → ∃ k, n ≤ k ∧ ((ss k).callers i = .returned ∨ (ss k).callers i = .panicked ∨ (ss k).prog = some .panic) := by
    intro n hc
    obtain ⟨m, k1, k2⟩ := hr n
    obtain ⟨k, j1, j2⟩ := h.wakes (.inl ⟨rfl, rfl⟩) hc k1 fun e => (h.asleep m i).1 e k2
    exact trans j1 (woken1 j2)
  have shut : ∀ n, (∃ k, (ss n).callers i = .task k) → (ss n).isOpen = false := fun n hk => (cinv (h.run n)).shut i (.inl hk)
  cases hc : (ss n).callers i with
  | store => exact absurd hc hi
  | requests k =>
    cases k with
    | enter =>
      obtain ⟨m, k1, k2, k3⟩ := h.caller hc nofun nofun nofun nofun nofun
      simp only [CSys.callerStep, k2] at k3
      have := set k3
      split at this
      · exact trans (by omega) (close this)
      · exact trans (by omega) (asleep1 this)
    | asleep => exact asleep1 hc
    | woken => exact woken1 hc
  | close => exact close hc
  | task k =>
    have hs := shut n ⟨k, hc⟩
    cases k with
    | enter => exact enter2 hs hc
    | asleep => exact asleep2 hs hc
    | woken => exact woken2 hc
  | returned => exact ⟨n, Nat.le_refl _, .inl hc⟩
  | panicked => exact ⟨n, Nat.le_refl _, .inr (.inl hc)⟩

/-- **C86**: if moreover all requests received have been taken up when `Close` is called for the first time, every caller of `Close` sees it return (unless the client's goroutine panics). -/
theorem C86_returns_calm_partial (h : CEndless sv w ss es) {i j n k : Nat} (hl : ∀ j, .caller j ∉ (List.range n).map es) (he : es n = .caller i)
    (hf : served (ownOf ((List.range n).map es)) = frames (received (ownOf ((List.range n).map es)))) (hj : (ss k).callers j ≠ .store) (hk : n ≤ k)
    (hr : ∀ n, ∃ m, n ≤ m ∧ (ss m).requests = 0) : ∃ m, k ≤ m ∧ ((ss m).callers j = .returned ∨ (ss m).prog = some .panic) := by
  obtain ⟨m, h1, h2⟩ := C86_returns_partial h hj hr
  rcases h2 with h2 | h2 | h2
  · exact ⟨m, h1, .inl h2⟩
  · refine absurd h2 ?_
    by_cases hm : m = n
    · subst hm
      rw [caller_store (h.run m) (hl j) rfl] at h2
      cases h2
    · have hrun := h.run m
      obtain ⟨d, rfl⟩ := Nat.exists_eq_add_of_le (show n + 1 ≤ m by omega)
      rw [List.range_add, List.map_append, List.range_succ, List.map_append, List.append_assoc] at hrun
      simp only [List.map_cons, List.map_nil, he, List.singleton_append] at hrun
      exact (C86_calm_partial hrun hl hf).2.1 j
  · exact ⟨m, h1, .inr h2⟩

end

/-! ### A case -/

/-- The schedule, then steps of others for ever. -/
def cthen (ps : List CPick) (s : CSys) : Nat → CSys := fun n => (cplay (ps.take n) s).2

def cthenEvents (ps : List CPick) (s : CSys) : Nat → CEv := fun n => (cplay ps s).1.getD n .env

/-- All entries of the schedule can be played. -/
def cfull : List CPick → CSys → Bool
  | [], _ => true
  | p :: ps, s =>
    match cpick s p with
    | some (_, s1) => cfull ps s1
    | none => false

theorem cthen_step {ps : List CPick} {s : CSys} (h : cfull ps s = true) (n : Nat) : CSys.Step (cthen ps s n) (cthenEvents ps s n) (cthen ps s (n + 1)) := by
  induction ps generalizing s n with
  | nil =>
    unfold cthen cthenEvents
    simp only [List.take_nil, cplay]
    exact CSys.Step.env s.world
  | cons p ps ih =>
    unfold cfull at h
    cases hp : cpick s p with
    | none => rw [hp] at h; cases h
    | some x =>
      obtain ⟨e, s1⟩ := x
      rw [hp] at h
      unfold cthen cthenEvents
      cases n with
      | zero =>
        simp only [List.take_zero, List.take_succ_cons, cplay, hp]
        exact cpick_sound hp
      | succ n =>
        simp only [List.take_succ_cons, cplay, hp]
        exact ih h n

theorem cthen_after {ps : List CPick} {s : CSys} {n : Nat} (h : ps.length ≤ n) : cthen ps s n = (cplay ps s).2 := by
  unfold cthen; rw [List.take_of_length_le h]

/-- `Close` waits for a request that has been taken up, closes the connection and waits for the client's goroutine. -/
def closeEnds : List CPick := oneAsked ++ [.own, .own] ++ closeWaits

def isZero : CEv → Bool
  | .caller j => decide (j = 0)
  | _ => false

theorem isZero_eq {e : CEv} (h : isZero e = true) : e = .caller 0 := by
  cases e with
  | caller j => rw [of_decide_eq_true h]
  | _ => cases h

def callerZero : CEv → Bool
  | .caller j => decide (j = 0)
  | _ => true

set_option maxRecDepth 100000 in
/-- The hypotheses of `C86_returns_calm_partial` hold here, with a request in progress when `Close` is called. -/
example : CEndless ⟨9092, []⟩ ⟨[], 0, false⟩ (cthen closeEnds freshClient) (cthenEvents closeEnds freshClient) ∧
    (∀ j, .caller j ∉ (List.range 6).map (cthenEvents closeEnds freshClient)) ∧ cthenEvents closeEnds freshClient 6 = .caller 0 ∧ (cthen closeEnds freshClient 7).requests = 1 ∧
    (cthen closeEnds freshClient 7).callers 0 ≠ .store ∧
    served (ownOf ((List.range 6).map (cthenEvents closeEnds freshClient))) = frames (received (ownOf ((List.range 6).map (cthenEvents closeEnds freshClient)))) ∧
    ∀ n, ∃ m, n ≤ m ∧ (cthen closeEnds freshClient m).requests = 0 := by
  have hend : ∀ n, closeEnds.length ≤ n → (cthen closeEnds freshClient n).prog = none ∧ (cthen closeEnds freshClient n).callers 0 = .returned ∧ (cthen closeEnds freshClient n).requests = 0 := by
    intro n hn
    rw [cthen_after hn]
    have h1 : (cplay closeEnds freshClient).2.prog.isNone = true := by decide +kernel
    exact ⟨Option.isNone_iff_eq_none.1 h1, by decide +kernel, by decide +kernel⟩
  have hfull : cfull closeEnds freshClient = true := by decide +kernel
  have hlen : closeEnds.length = 21 := rfl
  have hzero : ∀ e ∈ (cplay closeEnds freshClient).1, callerZero e = true := by
    intro e he
    exact List.all_eq_true.1 (by decide +kernel : (cplay closeEnds freshClient).1.all callerZero = true) e he
  have hev : ∀ n i, i ≠ 0 → cthenEvents closeEnds freshClient n ≠ .caller i := by
    intro n i hi he
    unfold cthenEvents at he
    rw [List.getD_eq_getElem?_getD] at he
    cases hg : (cplay closeEnds freshClient).1[n]? with
    | none => rw [hg] at he; cases he
    | some e =>
      rw [hg] at he
      have := hzero e (List.mem_of_getElem? hg)
      rw [show e = .caller i from he] at this
      exact hi (of_decide_eq_true this)
  refine ⟨⟨rfl, cthen_step hfull, ?_, ?_⟩, no_caller (by decide +kernel), ?_, by decide +kernel, by decide +kernel, by decide +kernel, fun n => ⟨n + 21, by omega, (hend _ (by omega)).2.2⟩⟩
  · intro n p hp hn
    have h20 : (cthen closeEnds freshClient 20).prog.isNone = true := by decide +kernel
    refine ⟨19, ?_, by decide +kernel⟩
    refine Nat.le_of_not_lt fun h => ?_
    have : (cthen closeEnds freshClient n).prog = none := by
      by_cases e : n = 20
      · subst e; exact Option.isNone_iff_eq_none.1 h20
      · exact (hend n (by omega)).1
    rw [this] at hp; cases hp
  · intro i n hi hc
    by_cases h0 : i = 0
    · subst h0
      refine ⟨20, Nat.le_of_not_lt fun h => hc ?_, isZero_eq (by decide +kernel)⟩
      unfold CSys.callerStep
      rw [(hend n (by omega)).2.1]
    · refine absurd ?_ hi
      clear hi hc
      induction n with
      | zero => rfl
      | succ n ih => exact caller_store (.cons (cthen_step hfull n) (.nil _)) (fun hm => hev n i h0 (List.mem_singleton.1 hm).symm) ih
  · rfl

end KM.Props
