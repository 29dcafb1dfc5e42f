import Verif.Callers
import Verif.Props.System
/-
C56: no goroutine of the mock ever dereferences a nil topic or partition pointer, and none gets stuck inside a request or a posting function.
-/
namespace KM.Props
open KM KM.Spec

theorem called_ok {c : Call} {p : Prog Unit} (h : c.entry = .call p) : p.Ok (fun _ => False) Prog.Ok.nothing := by
  cases c <;> cases h
  · exact simplePost_ok ..
  · exact extendedPost_ok ..
  · exact createPartitionTopics_ok ..
  · exact setConsumerGroupOffset_ok ..

/-- **C56**, one goroutine among any others: whenever a connection goroutine is about to act on a topic or a partition, it is in the store. -/
theorem C56_no_nil_handler {sv : Server} {w w' : World} {tr : List Ev} {a : Act} {k : a.Resp → Prog Unit} (h : Exec w (handle sv) tr w' (.act a k)) :
    (∀ t p, a.needs = some (t, some p) → w'.hasPartition t p) ∧ ∀ t, a.needs = some (t, none) → w'.hasTopic t :=
  ⟨fun t p hn => (h.can_act (handle_ok sv)).1 (t, some p) hn, fun t hn => (h.can_act (handle_ok sv)).1 (t, none) hn⟩

/-- **C56** in the whole mock: in every state it can get into, a connection goroutine that is processing requests and a caller that is inside a posting
function dereference only objects that exist, and can make their next step. -/
theorem C56_no_nil_mock {sv : Server} {clock : Int} {tr : List SEv} {s : Sys} (h : Sys.Run (Sys.new sv clock) tr s) :
    (∀ (c : Nat) (k : ConnG) (a : Act) (f : a.Resp → Prog Unit), s.conns[c]? = some k → k.pc = .body (.act a f) →
      (∀ x, a.needs = some x → (s.view k.ctx).has x) ∧ ∃ r s', Sys.Step s (.conn c a r) s') ∧
    (∀ (i : Nat) (a : Act) (f : a.Resp → Prog Unit), s.api i = .call (.act a f) →
      (∀ x, a.needs = some x → (s.view 0).has x) ∧ ∃ r s', Sys.Step s (.call i a r) s') := by
  constructor
  · intro c k a f hk hp
    obtain ⟨w, w', e1, e2, p2, h1, _⟩ := h.connection_at (.nil s) hk hp
    obtain ⟨h2, r, w1, h3⟩ := h1.can_act (handle_ok sv)
    exact ⟨h2, r, _, .conn hk hp h3⟩
  · intro i a f hp
    obtain ⟨t0, t1, s0, s1, c, q, es, _, _, _, _, _, h1, _, h2, _⟩ := h.called hp
    obtain ⟨h3, r, w1, h4⟩ := h2.can_act (called_ok h1)
    exact ⟨h3, r, _, .call hp h4⟩

/-- Something connection `c` does. -/
def byConn (c : Nat) : SEv → Prop
  | .conn c' _ _ => c' = c
  | .unroll c' => c' = c
  | .life (.conn c') => c' = c
  | _ => False

/-- **C56**: a connection goroutine that is processing requests is never blocked: unless it has panicked (which ends the process), it has a next step. -/
theorem C56_never_blocked {sv : Server} {clock : Int} {tr : List SEv} {s : Sys} (h : Sys.Run (Sys.new sv clock) tr s) {c : Nat} {k : ConnG} {p : Prog Unit}
    (hk : s.conns[c]? = some k) (hp : k.pc = .body p) (hpanic : p ≠ .panic) : ∃ e s', byConn c e ∧ Sys.Step s e s' := by
  cases p with
  | ret v =>
    refine ⟨.life (.conn c), s.setConn c { k with pc := .oc .lock }, rfl, .life ?_⟩
    simp [Sys.next, Sys.connStep, hk, hp]
  | panic => exact absurd rfl hpanic
  | act a f =>
    obtain ⟨_, r, s', h1⟩ := (C56_no_nil_mock h).1 c k a f hk hp
    exact ⟨.conn c a r, s', rfl, h1⟩
  | loop x body f => exact ⟨.unroll c, _, rfl, .unroll hk hp⟩

/-- What the next action of caller `i` dereferences. -/
def callNeeds (s : Sys) (i : Nat) : Option Loc := match s.api i with
  | .call (.act a _) => a.needs
  | _ => none

/-- What the next action of connection `c` dereferences. -/
def connNeeds (s : Sys) (c : Nat) : Option Loc := match s.conns[c]? with
  | some ⟨_, _, _, .body (.act a _)⟩ => a.needs
  | _ => none

/-- A caller in the middle of `SimplePost`, about to use the topic pointer, then the partition pointer. -/
example : callNeeds (after (caller 0 (.simplePost [116] 0 none (some [1, 2])) 2)) 0 = some ([116], none) ∧
    callNeeds (after (caller 0 (.simplePost [116] 0 none (some [1, 2])) 4)) 0 = some ([116], some 0) := by decide +kernel

/-- A connection in the middle of a Fetch, about to use the partition pointer it obtained earlier. -/
example : connNeeds (after (bootAndPost ++ accepts 0 ++ [.conn 0, .conn 0, .recv 0 (.data fetchBytes)] ++ List.replicate 7 (.conn 0))) 0 = some ([116], some 0) := by decide +kernel

end KM.Props
