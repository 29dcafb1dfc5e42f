import Verif.Sim
import Verif.Conn
import Verif.Room
/-
`kafkaClient.Close`, /repo/kafka-client.go:142-158, with the goroutine of the same client (`handle`, lines 78-140). The mock does not call `Close`. Everything else that
happens in the mock is the environment: the store may change in any way at any time (`CSys.Step.env`). Any number of goroutines may call `Close`.
-/
set_option linter.unusedTactic false
namespace KM

/-- Where a goroutine is in `WaitGroup.Wait`: before looking at the counter, asleep because it was not zero, or woken because it has become zero. -/
inductive CWait where
  | enter
  | asleep
  | woken
deriving DecidableEq

/-- Where a caller of `Close` is. -/
inductive ClosePc where
  /-- before line 144 -/
  | store
  /-- line 148, `kc.requestWg.Wait()` -/
  | requests (k : CWait)
  /-- line 151, `kc.conn.Close()` -/
  | close
  /-- line 155, `kc.wg.Wait()` -/
  | task (k : CWait)
  | returned
  /-- "WaitGroup is reused before previous Wait has returned" -/
  | panicked
deriving DecidableEq

/-- The state of the client. -/
structure CSys where
  /-- the rest of the program of `handle`; `none` after `kc.wg.Done()`, line 80 -/
  prog : Option (Prog Unit)
  stopping : Bool
  /-- the counter of `kc.requestWg` -/
  requests : Nat
  /-- the connection has not been closed on this side -/
  isOpen : Bool
  callers : Nat → ClosePc
  world : World

/-- `newKafkaClient`, /repo/kafka-client.go:59-76. -/
def CSys.new (sv : Server) (w : World) : CSys := ⟨some (handle sv), false, 0, true, fun _ => .store, w⟩

/-- What happens. -/
inductive CEv where
  /-- the goroutine of the client does something -/
  | own (e : REv)
  /-- it enters a round of its loop -/
  | round
  /-- it ends -/
  | ended
  /-- a caller of `Close` takes a step -/
  | caller (i : Nat)
  | env

namespace CSys

/-- What the state says about results: `kc.stopping.Load()` gives the variable; on a connection that has been closed on this side, reads fail with an error that
`wasSocketClosed` recognises, writes fail, and `File` fails. -/
def Allows (s : CSys) : (a : Act) → a.Resp → Prop
  | .isStopping, r => r = s.stopping
  | .recv, r => s.isOpen = false → r = .closed
  | .write _, r => s.isOpen = false → r = false
  | .isConnected, r => s.isOpen = false → r = .noFile
  | _, _ => True

/-- A `Done` that brings `kc.requestWg` to zero wakes those who wait for it. -/
def wakeRequests : ClosePc → ClosePc
  | .requests .asleep => .requests .woken
  | pc => pc

/-- `kc.wg.Done()` wakes those who wait for `kc.wg`, whose counter becomes zero. -/
def wakeTask : ClosePc → ClosePc
  | .task .asleep => .task .woken
  | pc => pc

/-- What an action of the client's goroutine does to the fields of `kc`. -/
def effect (s : CSys) : Act → CSys
  | .reqBegin _ => { s with requests := s.requests + 1 }
  | .reqEnd => { s with requests := s.requests - 1, callers := if s.requests = 1 then fun i => wakeRequests (s.callers i) else s.callers }
  | .close => { s with isOpen := false }
  | _ => s

def setCaller (s : CSys) (i : Nat) (pc : ClosePc) : CSys := { s with callers := fun j => if j = i then pc else s.callers j }

/-- A step of caller `i` of `Close`. -/
def callerStep (s : CSys) (i : Nat) : Option CSys :=
  match s.callers i with
  | .store => some (({ s with stopping := true } : CSys).setCaller i (.requests .enter))
  | .requests .enter => some (s.setCaller i (if s.requests = 0 then .close else .requests .asleep))
  | .requests .asleep => none
  | .requests .woken => some (s.setCaller i (if s.requests = 0 then .close else .panicked))
  | .close => some (({ s with isOpen := false } : CSys).setCaller i (.task .enter))
  | .task .enter => some (s.setCaller i (if s.prog.isNone then .returned else .task .asleep))
  | .task .asleep => none
  | .task .woken => some (s.setCaller i .returned)
  | .returned => none
  | .panicked => none

end CSys

inductive CSys.Step : CSys → CEv → CSys → Prop where
  | own {s : CSys} {a : Act} {f : a.Resp → Prog Unit} {r : a.Resp} {w : World} (hp : s.prog = some (.act a f)) (hr : s.Allows a r) (ha : a.step s.world r w) :
      Step s (.own ⟨a, r⟩) { s.effect a with prog := some (f r), world := w }
  | round {s : CSys} {σ β : Type} {x : σ} {body : σ → Prog (σ ⊕ β)} {f : β → Prog Unit} (hp : s.prog = some (.loop x body f)) :
      Step s .round { s with prog := some (Prog.unroll x body f) }
  | ended {s : CSys} (hp : s.prog = some (.ret ())) : Step s .ended { s with prog := none, callers := fun i => wakeTask (s.callers i) }
  | caller {s s' : CSys} {i : Nat} (h : s.callerStep i = some s') : Step s (.caller i) s'
  | env {s : CSys} (w : World) : Step s .env { s with world := w }

inductive CSys.Run : CSys → List CEv → CSys → Prop where
  | nil (s : CSys) : Run s [] s
  | cons {s s1 s2 : CSys} {e : CEv} {es : List CEv} (h : Step s e s1) (hs : Run s1 es s2) : Run s (e :: es) s2

/-- What the client's goroutine does. -/
def ownOf (l : List CEv) : List REv := l.filterMap fun
  | .own e => some e
  | _ => none

theorem ownOf_append (a b : List CEv) : ownOf (a ++ b) = ownOf a ++ ownOf b := List.filterMap_append ..

theorem CSys.Run.append {s s1 s2 : CSys} {a b : List CEv} (h1 : Run s a s1) (h2 : Run s1 b s2) : Run s (a ++ b) s2 := by
  induction h1 with
  | nil => exact h2
  | cons h _ ih => exact .cons h (ih h2)

theorem CSys.Run.split {s s2 : CSys} {a b : List CEv} (h : Run s (a ++ b) s2) : ∃ s1, Run s a s1 ∧ Run s1 b s2 := by
  induction a generalizing s with
  | nil => exact ⟨s, .nil s, h⟩
  | cons e a ih =>
    cases h with
    | cons h hs =>
      obtain ⟨s1, h1, h2⟩ := ih hs
      exact ⟨s1, .cons h h1, h2⟩

/-- Induction from the end. -/
theorem CSys.Run.snoc {s s2 : CSys} {a : List CEv} {e : CEv} (h : Run s (a ++ [e]) s2) : ∃ s1, Run s a s1 ∧ Step s1 e s2 := by
  obtain ⟨s1, h1, h2⟩ := h.split
  cases h2 with
  | cons h hs => cases hs; exact ⟨s1, h1, h⟩

theorem tidy_counts {b : Bool} {l : List REv} (h : Tidy b l) : Spec.ended l ≤ (Spec.served l).length + b.toNat := by
  induction l generalizing b with
  | nil => exact Nat.zero_le _
  | cons e l ih =>
    obtain ⟨a, r⟩ := e
    cases a with
    | reqBegin m =>
      have := ih h.2
      show Spec.ended l ≤ (Spec.served l).length + 1 + b.toNat
      simp only [Bool.toNat_true] at this
      omega
    | reqEnd =>
      have := ih h.2
      have hb : b = true := h.1
      subst hb
      simp only [Bool.toNat_false] at this
      show Spec.ended l + 1 ≤ (Spec.served l).length + 1
      omega
    | fetchRecord | recv | close => exact ih h.2
    | _ => exact ih (b := b) h

/-- What holds of every state: what the client's goroutine has done, the counter of requests in progress, and those who wait for the goroutine. -/
structure CInv (sv : Server) (l : List CEv) (s : CSys) : Prop where
  own : ∃ p, Own (handle sv) (ownOf l) p ∧ (s.prog = some p ∨ s.prog = none ∧ p = .ret ())
  count : s.requests + Spec.ended (ownOf l) = (Spec.served (ownOf l)).length
  task : ∀ i, s.callers i = .task .woken ∨ s.callers i = .returned → s.prog = none
  stop : ∀ i, s.callers i ≠ .store → s.stopping = true
  shut : ∀ i, (∃ k, s.callers i = .task k) ∨ s.callers i = .returned → s.isOpen = false

theorem handle_tidy {sv : Server} {l : List REv} {p : Prog Unit} (h : Own (handle sv) l p) : Tidy false l := conv_tidy (handle_conv h)

theorem Own.snoc {p : Prog Unit} {l : List REv} {a : Act} {f : a.Resp → Prog Unit} (h : Own p l (.act a f)) (r : a.Resp) : Own p (l ++ [⟨a, r⟩]) (f r) :=
  h.trans (.act a f r (.refl _))

theorem ended_append (l l' : List REv) : Spec.ended (l ++ l') = Spec.ended l + Spec.ended l' := by
  induction l with
  | nil => exact (Nat.zero_add _).symm
  | cons x l ih =>
    obtain ⟨a, r⟩ := x
    cases a
    case reqEnd => show Spec.ended (l ++ l') + 1 = Spec.ended l + 1 + Spec.ended l'; omega
    all_goals exact ih

theorem served_append' (l l' : List REv) : Spec.served (l ++ l') = Spec.served l ++ Spec.served l' := by
  induction l with
  | nil => rfl
  | cons x l ih =>
    obtain ⟨a, r⟩ := x
    cases a <;> first | exact ih | exact congrArg (_ :: ·) ih

theorem CSys.effect_prog (s : CSys) (a : Act) : (s.effect a).prog = s.prog := by
  cases a <;> rfl

theorem CSys.effect_task {s : CSys} {a : Act} {i : Nat} (h : (s.effect a).callers i = .task .woken ∨ (s.effect a).callers i = .returned) :
    s.callers i = .task .woken ∨ s.callers i = .returned := by
  cases a
  case reqEnd =>
    have he : (s.effect .reqEnd).callers = if s.requests = 1 then fun i => wakeRequests (s.callers i) else s.callers := rfl
    rw [he] at h
    split at h
    · simp only [] at h
      revert h
      cases s.callers i with
      | requests k => cases k <;> simp [wakeRequests]
      | _ => simp [wakeRequests]
    · exact h
  all_goals exact h

theorem CSys.effect_stop {s : CSys} {a : Act} (h : ∀ i, s.callers i ≠ .store → s.stopping = true) (i : Nat) (hi : (s.effect a).callers i ≠ .store) : (s.effect a).stopping = true := by
  cases a
  case reqEnd =>
    refine h i fun e => hi ?_
    have he : (s.effect .reqEnd).callers = if s.requests = 1 then fun i => wakeRequests (s.callers i) else s.callers := rfl
    rw [he]
    split
    · simp only [e, wakeRequests]
    · exact e
  all_goals exact h i hi

theorem CSys.effect_shut {s : CSys} {a : Act} (h : ∀ i, (∃ k, s.callers i = .task k) ∨ s.callers i = .returned → s.isOpen = false) (i : Nat)
    (hi : (∃ k, (s.effect a).callers i = .task k) ∨ (s.effect a).callers i = .returned) : (s.effect a).isOpen = false := by
  cases a
  case reqEnd =>
    refine h i ?_
    have he : (s.effect .reqEnd).callers = if s.requests = 1 then fun i => wakeRequests (s.callers i) else s.callers := rfl
    rw [he] at hi
    split at hi
    · simp only [] at hi
      revert hi
      cases s.callers i with
      | requests k => cases k <;> simp [wakeRequests]
      | _ => simp [wakeRequests]
    · exact hi
  case close => rfl
  all_goals exact h i hi

theorem wakeTask_store {pc : ClosePc} (h : CSys.wakeTask pc ≠ .store) : pc ≠ .store := fun e => h (by rw [e]; rfl)

theorem wakeTask_shut {pc : ClosePc} (h : (∃ k, CSys.wakeTask pc = .task k) ∨ CSys.wakeTask pc = .returned) : (∃ k, pc = .task k) ∨ pc = .returned := by
  cases pc with
  | task k => exact .inl ⟨k, rfl⟩
  | _ => exact h

theorem cinv {sv : Server} {w : World} {l : List CEv} {s : CSys} (h : CSys.Run (CSys.new sv w) l s) : CInv sv l s := by
  generalize hn : l.length = n
  induction n generalizing l s with
  | zero =>
    cases List.eq_nil_of_length_eq_zero hn
    cases h
    exact ⟨⟨_, .refl _, .inl rfl⟩, rfl, (fun i h => by rcases h with h | h <;> cases h), fun i h => absurd rfl h, (fun i h => by rcases h with ⟨_, h⟩ | h <;> cases h)⟩
  | succ n ih =>
    obtain ⟨l0, e, rfl⟩ : ∃ l0 e, l = l0 ++ [e] := ⟨l.dropLast, l.getLast (by intro e; rw [e] at hn; cases hn), (List.dropLast_append_getLast _).symm⟩
    obtain ⟨s0, h0, hs⟩ := h.snoc
    have hi := ih h0 (by simpa using hn)
    obtain ⟨⟨p, ho, hp⟩, hc, ht, hst, hsh⟩ := hi
    cases hs with
    | @own a f r w hp' hr ha =>
      have hpp : p = .act a f := by
        rcases hp with hp | ⟨hp, _⟩ <;> rw [hp'] at hp <;> cases hp
        rfl
      subst hpp
      have ho' : ownOf (l0 ++ [CEv.own ⟨a, r⟩]) = ownOf l0 ++ [⟨a, r⟩] := ownOf_append ..
      refine ⟨⟨f r, ho' ▸ ho.snoc r, .inl rfl⟩, ?_, fun i h => ?_, CSys.effect_stop hst, CSys.effect_shut hsh⟩
      · have hle := tidy_counts (handle_tidy (ho.snoc r))
        rw [ho']
        rw [ended_append, served_append'] at hle ⊢
        rw [List.length_append] at hle ⊢
        cases a
        case reqBegin m =>
          show s0.requests + 1 + (_ + 0) = _ + 1
          omega
        case reqEnd =>
          show s0.requests - 1 + (_ + 1) = _ + 0
          have : Spec.ended (ownOf l0) + 1 ≤ (Spec.served (ownOf l0)).length + 0 + 0 := hle
          omega
        all_goals exact hc
      · have := ht i (CSys.effect_task h)
        rw [hp'] at this
        cases this
    | @round σ β x body f hp' =>
      have hpp : p = .loop x body f := by
        rcases hp with hp | ⟨hp, _⟩ <;> rw [hp'] at hp <;> cases hp
        rfl
      subst hpp
      have ho' : ownOf (l0 ++ [CEv.round]) = ownOf l0 := (ownOf_append ..).trans (List.append_nil _)
      have h1 := ho.trans (.unroll (.refl (Prog.unroll x body f)))
      rw [List.append_nil] at h1
      rw [← ho'] at h1 hc
      refine ⟨⟨_, h1, .inl rfl⟩, hc, fun i h => ?_, hst, hsh⟩
      have := ht i h
      rw [hp'] at this
      cases this
    | ended hp' =>
      have hpp : p = .ret () := by
        rcases hp with hp | ⟨hp, _⟩ <;> rw [hp'] at hp <;> cases hp
        rfl
      subst hpp
      have ho' : ownOf (l0 ++ [CEv.ended]) = ownOf l0 := (ownOf_append ..).trans (List.append_nil _)
      rw [← ho'] at ho hc
      exact ⟨⟨_, ho, .inr ⟨rfl, rfl⟩⟩, hc, fun _ _ => rfl, fun i h => hst i (wakeTask_store h), fun i h => hsh i (wakeTask_shut h)⟩
    | @caller _ i h =>
      have ho' : ownOf (l0 ++ [CEv.caller i]) = ownOf l0 := (ownOf_append ..).trans (List.append_nil _)
      rw [← ho'] at ho hc
      have key : s.prog = s0.prog ∧ s.requests = s0.requests ∧ (∀ j, s.callers j = .task .woken ∨ s.callers j = .returned → s0.prog = none) := by
        simp only [CSys.callerStep] at h
        split at h
        all_goals first
          | (cases h; done)
          | (cases h
             refine ⟨rfl, rfl, fun j hj => ?_⟩
             simp only [CSys.setCaller] at hj
             split at hj
             · first
                 | (simp at hj; done)
                 | (split at hj <;> simp_all; done)
                 | exact ht i (.inl ‹_›)
             · exact ht j hj)
      have key2 : s.stopping = true := by
        simp only [CSys.callerStep] at h
        split at h
        all_goals first
          | (cases h; done)
          | (cases h; rfl)
          | (cases h; exact hst i (by rw [‹s0.callers i = _›]; nofun))
      have key3 : ∀ j, (∃ k, s.callers j = .task k) ∨ s.callers j = .returned → s.isOpen = false := by
        simp only [CSys.callerStep] at h
        split at h
        all_goals first
          | (cases h; done)
          | (cases h
             intro j hj
             simp only [CSys.setCaller] at hj
             first
               | rfl
               | (split at hj
                  · first
                      | (simp at hj; done)
                      | (split at hj <;> simp at hj; done)
                      | exact hsh i (.inl ⟨_, ‹_›⟩)
                  · exact hsh j hj))
      obtain ⟨k1, k2, k3⟩ := key
      exact ⟨⟨p, ho, k1 ▸ hp⟩, k2 ▸ hc, fun j hj => k1 ▸ k3 j hj, fun _ _ => key2, key3⟩
    | env w =>
      have ho' : ownOf (l0 ++ [CEv.env]) = ownOf l0 := (ownOf_append ..).trans (List.append_nil _)
      rw [← ho'] at ho hc
      exact ⟨⟨p, ho, hp⟩, hc, ht, hst, hsh⟩

end KM
