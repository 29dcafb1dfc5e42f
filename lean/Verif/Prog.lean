import Verif.Store
/-
Goroutines as programs over atomic actions, interleaved with an arbitrary environment.

An `Act` is one critical section (or one unlocked access) of the code. Between two actions of a
program any number of actions of other goroutines may happen (`Exec.env`), including the passing of time
and the cancellation of the server's context.
-/
namespace KM

/-- What the goroutines share: the store, the clock (`time.Now()`, monotonic, in nanoseconds) and the
"done" state of the lane (`kc.l.Done()`). -/
structure World where
  ds : Store
  clock : Int
  cancelled : Bool

/-- Atomic actions. -/
inductive Act where
  /-- `ds.createTopic(name)`, /repo/datastore.go:50-62 -/
  | createTopic (t : Bytes)
  /-- `ds.getTopic(name)`, /repo/datastore.go:64-69 -/
  | getTopic (t : Bytes)
  /-- `kt.createPartition(n)`, /repo/datastore.go:71-85 -/
  | createPartition (t : Bytes) (p : I32)
  /-- `kt.getPartition(n)`, /repo/datastore.go:87-92 -/
  | getPartition (t : Bytes) (p : I32)
  /-- `kp.postRecord(..)`, /repo/datastore.go:102-119 -/
  | post (t : Bytes) (p : I32) (r : Record)
  /-- the locked block of /repo/offset_commit.go:66-72 -/
  | commit (t : Bytes) (p : I32) (g : Bytes) (o : I64)
  /-- `kp.groupCommittedOffset(group)`, /repo/datastore.go:121-130 -/
  | groupCommitted (t : Bytes) (p : I32) (g : Bytes)
  /-- the locked assignment of /repo/kafka-mock.go:194-197 -/
  | setOffset (t : Bytes) (p : I32) (g : Bytes) (o : I64)
  /-- unlocked reads of `kp.Index`, `kp.ErrorCode`, `kp.Metadata` (never written after creation),
  /repo/offset_fetch.go:66-69 -/
  | partInfo (t : Bytes) (p : I32)
  /-- unlocked `len(kp.Records)`, /repo/list_offsets.go:63,65,75 -/
  | numRecords (t : Bytes) (p : I32)
  /-- unlocked `kp.Records[i]`, /repo/list_offsets.go:68,76; `none` is an index out of range -/
  | recordAt (t : Bytes) (p : I32) (i : Int)
  /-- the locked block of /repo/fetch.go:82-86; `none` is an index out of range (negative offset) -/
  | fetchRecord (t : Bytes) (p : I32) (i : Int)
  /-- `range ds.Topics` (unlocked), /repo/sync_group.go:59: the names in some order -/
  | rangeTopics
  /-- `range topic.Partitions` (unlocked) and `par.Index`, /repo/sync_group.go:61-63 -/
  | rangePartitions (t : Bytes)
  /-- `range` over a local map with these keys, /repo/offset_fetch.go:62: the keys in some order -/
  | order (keys : List Bytes)
  /-- `range apiVersions` (a map that is constant after initialisation), /repo/api_versions.go:23 -/
  | orderInt (keys : List Int)
  /-- `range headers`, /repo/datastore.go:107 -/
  | orderHeaders (hs : List (Bytes × Option Bytes))
  /-- `time.Now()` -/
  | now
  /-- `select { case <-l.Done(): .. default: }` -/
  | isDone
  /-- `time.Sleep(d)` -/
  | sleep (d : Nat)
  /-- time passes (environment only) -/
  | tick (d : Nat)
  /-- the lane is cancelled: `km.cancelFn()` (/repo/kafka-mock.go:84,168) or cancellation of the parent -/
  | cancel
  /-- `kc.conn.Read`, /repo/kafka-client.go:107 -/
  | recv
  /-- `kc.stopping.Load()`, /repo/kafka-client.go:119 -/
  | isStopping
  /-- `conn.Write(b)`, /repo/kafka-message.go:33-44; the result is whether it succeeded -/
  | write (b : Bytes)
  /-- the system calls of `kc.isConnected()`, /repo/kafka-client.go:250-256 -/
  | isConnected
  /-- `kc.conn.Close()`, /repo/kafka-client.go:98 -/
  | close
  /-- `kc.requestWg.Add(1)`, /repo/kafka-client.go:131: processing of the message begins. The message is recorded in the event. -/
  | reqBegin (msg : Bytes)
  /-- `kc.requestWg.Done()`, /repo/kafka-client.go:134: processing of the message has ended. -/
  | reqEnd

/-- Result of `conn.Read(buffer)` with a deadline: data (1 to 8192 bytes), deadline exceeded, an error that
`wasSocketClosed` recognises, or any other error. -/
inductive RecvResult where
  | data (b : Bytes)
  | timeout
  | closed
  | failed

/-- What the probe of /repo/kafka-client.go:250-256 (`File`, then `recvfrom` of one byte, peeking, without waiting) finds: the descriptor is gone;
a byte is there to be read; the client has closed its side; nothing is there yet (`EAGAIN`); any other error, such as `ECONNRESET`. -/
inductive Probe where
  | noFile
  | byte
  | eof
  | again
  | error
deriving DecidableEq, Repr

@[reducible] def Act.Resp : Act → Type
  | .createTopic _ | .createPartition _ _ | .post _ _ _ | .commit _ _ _ _ | .setOffset _ _ _ _ => Unit
  | .sleep _ | .tick _ | .cancel | .close | .reqBegin _ | .reqEnd => Unit
  | .getTopic _ | .getPartition _ _ | .isDone | .isStopping | .write _ => Bool
  | .isConnected => Probe
  | .groupCommitted _ _ _ => I64
  | .partInfo _ _ => I32 × I16 × Option Bytes
  | .numRecords _ _ => Nat
  | .recordAt _ _ _ => Option Record
  | .fetchRecord _ _ _ => Option (Option Record)
  | .rangeTopics => List Bytes
  | .rangePartitions _ => List I32
  | .order _ => List Bytes
  | .orderInt _ => List Int
  | .orderHeaders _ => List (Bytes × Option Bytes)
  | .now => Int
  | .recv => RecvResult

/-- `World.upd`: the store changes, clock and cancellation do not. -/
def World.withDs (w : World) (ds : Store) : World := { w with ds := ds }

/-- Effect and result of an action. An action on a partition is possible only when the partition exists
(the code holds a non-nil pointer to it). -/
def Act.step : (a : Act) → World → a.Resp → World → Prop
  | .createTopic t, w, _, w' => w' = w.withDs (w.ds.createTopic t)
  | .getTopic t, w, r, w' => w' = w ∧ r = w.ds.getTopic t
  | .createPartition t p, w, _, w' => (GoMap.get w.ds t).isSome ∧ w' = w.withDs (w.ds.createPartition t p)
  | .getPartition t p, w, r, w' => (GoMap.get w.ds t).isSome ∧ w' = w ∧ r = w.ds.getPartition t p
  | .post t p rec, w, _, w' => (w.ds.part? t p).isSome ∧ w' = w.withDs (w.ds.updPart t p (Store.postRecord · rec))
  | .commit t p g o, w, _, w' => (w.ds.part? t p).isSome ∧ w' = w.withDs (w.ds.updPart t p (Store.commitOffset · g o))
  | .groupCommitted t p g, w, r, w' => ∃ kp, w.ds.part? t p = some kp ∧ r = Store.groupCommitted kp g ∧
      w' = w.withDs (w.ds.updPart t p (Store.touchGroup · g))
  | .setOffset t p g o, w, _, w' => (w.ds.part? t p).isSome ∧ w' = w.withDs (w.ds.updPart t p (Store.setOffset · g o))
  | .partInfo t p, w, r, w' => ∃ kp, w.ds.part? t p = some kp ∧ r = (kp.index, kp.errorCode, kp.metadata) ∧ w' = w
  | .numRecords t p, w, r, w' => ∃ kp, w.ds.part? t p = some kp ∧ r = kp.records.length ∧ w' = w
  | .recordAt t p i, w, r, w' => ∃ kp, w.ds.part? t p = some kp ∧ w' = w ∧
      r = if i < 0 then none else kp.records[i.toNat]?
  | .fetchRecord t p i, w, r, w' => ∃ kp, w.ds.part? t p = some kp ∧ w' = w ∧
      r = if i < (kp.records.length : Int) then (if i < 0 then none else some kp.records[i.toNat]?) else some none
  | .rangeTopics, w, r, w' => w' = w ∧ r.Perm (GoMap.keys w.ds)
  | .rangePartitions t, w, r, w' => w' = w ∧ ∃ kt, GoMap.get w.ds t = some kt ∧ r.Perm (kt.map fun e => e.2.index)
  | .order ks, w, r, w' => w' = w ∧ r.Perm ks
  | .orderInt ks, w, r, w' => w' = w ∧ r.Perm ks
  | .orderHeaders hs, w, r, w' => w' = w ∧ r.Perm hs
  | .now, w, r, w' => w' = w ∧ r = w.clock
  | .isDone, w, r, w' => w' = w ∧ r = w.cancelled
  | .sleep d, w, _, w' => ∃ c : Int, w.clock + d ≤ c ∧ w' = { w with clock := c }
  | .tick d, w, _, w' => w' = { w with clock := w.clock + d }
  | .cancel, w, _, w' => w' = { w with cancelled := true }
  | .recv, w, r, w' => w' = w ∧ ∀ b, r = .data b → b ≠ [] ∧ b.length ≤ 8192
  | .isStopping, w, _, w' => w' = w
  | .write _, w, _, w' => w' = w
  | .isConnected, w, _, w' => w' = w
  | .close, w, _, w' => w' = w
  | .reqBegin _, w, _, w' => w' = w
  | .reqEnd, w, _, w' => w' = w

/-- One executed action; `mine` tells whether it belongs to the observed program. -/
structure Ev where
  mine : Bool
  act : Act
  resp : act.Resp

/-- A goroutine's program. `loop` is a Go `for {}` over a local state; `body` returns the next state
(`inl`) or breaks out (`inr`). -/
inductive Prog : Type → Type 1 where
  | ret {α : Type} (v : α) : Prog α
  | panic {α : Type} : Prog α
  | act {α : Type} (a : Act) (k : a.Resp → Prog α) : Prog α
  | loop {α σ β : Type} (s : σ) (body : σ → Prog (σ ⊕ β)) (k : β → Prog α) : Prog α

namespace Prog

def bind {α β : Type} : Prog α → (α → Prog β) → Prog β
  | .ret v, f => f v
  | .panic, _ => .panic
  | .act a k, f => .act a fun r => (k r).bind f
  | .loop s body k, f => .loop s body fun b => (k b).bind f

def map {α β : Type} (f : α → β) (p : Prog α) : Prog β := p.bind fun v => .ret (f v)

/-- A single action. -/
def do' (a : Act) : Prog a.Resp := .act a .ret

@[simp] theorem bind_ret {α β : Type} (v : α) (f : α → Prog β) : (Prog.ret v).bind f = f v := rfl
@[simp] theorem bind_panic {α β : Type} (f : α → Prog β) : (Prog.panic : Prog α).bind f = .panic := rfl
@[simp] theorem bind_act {α β : Type} (a : Act) (k : a.Resp → Prog α) (f : α → Prog β) :
    (Prog.act a k).bind f = .act a fun r => (k r).bind f := rfl
@[simp] theorem bind_loop {α β σ γ : Type} (s : σ) (body : σ → Prog (σ ⊕ γ)) (k : γ → Prog α) (f : α → Prog β) :
    (Prog.loop s body k).bind f = .loop s body fun b => (k b).bind f := rfl

/-- One round of a loop. -/
def unroll {α σ β : Type} (s : σ) (body : σ → Prog (σ ⊕ β)) (k : β → Prog α) : Prog α :=
  (body s).bind fun
    | .inl s' => .loop s' body k
    | .inr b => k b

end Prog

/-- A sequence of actions executed one after the other by whomever. -/
inductive Steps : World → List Ev → World → Prop where
  | nil (w : World) : Steps w [] w
  | cons {w w1 w2 : World} (e : Ev) {es : List Ev} (h : e.act.step w e.resp w1) (hs : Steps w1 es w2) : Steps w (e :: es) w2

/-- Interleaved execution of one program with an arbitrary environment: from `(w, p)` to `(w', p')` with the
given sequence of events. -/
inductive Exec {α : Type} : World → Prog α → List Ev → World → Prog α → Prop where
  | refl (w : World) (p : Prog α) : Exec w p [] w p
  | env {w w1 w2 : World} {p p' : Prog α} {tr : List Ev} (a : Act) (r : a.Resp) (h : a.step w r w1)
      (hs : Exec w1 p tr w2 p') : Exec w p (⟨false, a, r⟩ :: tr) w2 p'
  | mine {w w1 w2 : World} {p' : Prog α} {tr : List Ev} (a : Act) (k : a.Resp → Prog α) (r : a.Resp) (h : a.step w r w1)
      (hs : Exec w1 (k r) tr w2 p') : Exec w (.act a k) (⟨true, a, r⟩ :: tr) w2 p'
  | unroll {w w2 : World} {σ β : Type} {s : σ} {body : σ → Prog (σ ⊕ β)} {k : β → Prog α} {p' : Prog α} {tr : List Ev}
      (hs : Exec w (Prog.unroll s body k) tr w2 p') : Exec w (.loop s body k) tr w2 p'

theorem Steps.append {w w1 w2 : World} {e1 e2 : List Ev} (h1 : Steps w e1 w1) (h2 : Steps w1 e2 w2) :
    Steps w (e1 ++ e2) w2 := by
  induction h1 with
  | nil => exact h2
  | cons e h _ ih => exact .cons e h (ih h2)

theorem Steps.split {w w2 : World} {e1 e2 : List Ev} (h : Steps w (e1 ++ e2) w2) :
    ∃ w1, Steps w e1 w1 ∧ Steps w1 e2 w2 := by
  induction e1 generalizing w with
  | nil => exact ⟨w, .nil w, h⟩
  | cons e e1 ih =>
    cases h with
    | cons _ hs h =>
      obtain ⟨w1, h1, h2⟩ := ih h
      exact ⟨w1, .cons e hs h1, h2⟩

theorem Exec.steps {α : Type} {w w' : World} {p p' : Prog α} {tr : List Ev} (h : Exec w p tr w' p') : Steps w tr w' := by
  induction h with
  | refl w p => exact .nil w
  | env a r h _ ih => exact .cons _ h ih
  | mine a k r h _ ih => exact .cons _ h ih
  | unroll _ ih => exact ih

theorem Exec.trans {α : Type} {w w1 w2 : World} {p p1 p2 : Prog α} {t1 t2 : List Ev} (h1 : Exec w p t1 w1 p1)
    (h2 : Exec w1 p1 t2 w2 p2) : Exec w p (t1 ++ t2) w2 p2 := by
  induction h1 with
  | refl => exact h2
  | env a r h _ ih => exact .env a r h (ih h2)
  | mine a k r h _ ih => exact .mine a k r h (ih h2)
  | unroll _ ih => exact .unroll (ih h2)

/-- Environment steps only. -/
def EnvSteps (w : World) (tr : List Ev) (w' : World) : Prop := Steps w tr w' ∧ ∀ e ∈ tr, e.mine = false

/-- Post-condition on the events so far, the world, and the outcome (`none` = panic). -/
abbrev Post (α : Type) := List Ev → World → Option α → Prop

/-- Partial correctness: every finished run of `p` from `w`, however interleaved, satisfies `Q`. -/
def PC {α : Type} (w : World) (p : Prog α) (Q : Post α) : Prop :=
  (∀ tr w' v, Exec w p tr w' (.ret v) → Q tr w' (some v)) ∧ (∀ tr w', Exec w p tr w' .panic → Q tr w' none)

theorem exec_ret_inv {α : Type} {w w' : World} {v : α} {q : Prog α} {tr : List Ev} (h : Exec w (.ret v) tr w' q) :
    q = .ret v ∧ EnvSteps w tr w' := by
  generalize hp : (Prog.ret v : Prog α) = p at h
  induction h with
  | refl w p => exact ⟨rfl, .nil w, by simp⟩
  | env a r h _ ih =>
    obtain ⟨h1, h2, h3⟩ := ih hp
    refine ⟨h1, .cons _ h h2, ?_⟩
    intro e he
    rcases List.mem_cons.1 he with rfl | he
    · rfl
    · exact h3 e he
  | mine => cases hp
  | unroll => cases hp

theorem exec_panic_inv {α : Type} {w w' : World} {q : Prog α} {tr : List Ev} (h : Exec w (.panic : Prog α) tr w' q) :
    q = .panic ∧ EnvSteps w tr w' := by
  generalize hp : (Prog.panic : Prog α) = p at h
  induction h with
  | refl w p => exact ⟨rfl, .nil w, by simp⟩
  | env a r h _ ih =>
    obtain ⟨h1, h2, h3⟩ := ih hp
    refine ⟨h1, .cons _ h h2, ?_⟩
    intro e he
    rcases List.mem_cons.1 he with rfl | he
    · rfl
    · exact h3 e he
  | mine => cases hp
  | unroll => cases hp

theorem exec_act_inv {α : Type} {w w' : World} {a : Act} {k : a.Resp → Prog α} {q : Prog α} {tr : List Ev}
    (h : Exec w (.act a k) tr w' q) :
    (q = .act a k ∧ EnvSteps w tr w') ∨ ∃ t1 w1 r w2 t2, EnvSteps w t1 w1 ∧ a.step w1 r w2 ∧ Exec w2 (k r) t2 w' q ∧
      tr = t1 ++ ⟨true, a, r⟩ :: t2 := by
  generalize hp : (Prog.act a k : Prog α) = p at h
  induction h with
  | refl w p => exact .inl ⟨rfl, .nil w, by simp⟩
  | env a' r h _ ih =>
    rcases ih hp with ⟨h1, h2, h3⟩ | ⟨t1, w1, r1, w2, t2, h1, h2, h3, rfl⟩
    · refine .inl ⟨h1, .cons _ h h2, ?_⟩
      intro e he
      rcases List.mem_cons.1 he with rfl | he
      · rfl
      · exact h3 e he
    · refine .inr ⟨⟨false, a', r⟩ :: t1, w1, r1, w2, t2, ⟨.cons _ h h1.1, ?_⟩, h2, h3, rfl⟩
      intro e he
      rcases List.mem_cons.1 he with rfl | he
      · rfl
      · exact h1.2 e he
  | mine a' k' r h hs _ =>
    cases hp
    exact .inr ⟨[], _, r, _, _, ⟨.nil _, by simp⟩, h, hs, rfl⟩
  | unroll => cases hp

theorem EnvSteps.nil (w : World) : EnvSteps w [] w := ⟨.nil w, by simp⟩

theorem EnvSteps.cons {w w1 w2 : World} {tr : List Ev} {a : Act} {r : a.Resp} (h : a.step w r w1) (hs : EnvSteps w1 tr w2) :
    EnvSteps w (⟨false, a, r⟩ :: tr) w2 := by
  refine ⟨.cons _ h hs.1, ?_⟩
  intro e he
  rcases List.mem_cons.1 he with rfl | he
  · rfl
  · exact hs.2 e he

theorem EnvSteps.append {w w1 w2 : World} {t1 t2 : List Ev} (h1 : EnvSteps w t1 w1) (h2 : EnvSteps w1 t2 w2) :
    EnvSteps w (t1 ++ t2) w2 := by
  refine ⟨h1.1.append h2.1, ?_⟩
  intro e he
  rcases List.mem_append.1 he with he | he
  · exact h1.2 e he
  · exact h2.2 e he

theorem EnvSteps.exec {α : Type} {w w' : World} {tr : List Ev} (h : EnvSteps w tr w') (p : Prog α) : Exec w p tr w' p := by
  obtain ⟨hs, hm⟩ := h
  induction hs with
  | nil w => exact .refl w p
  | @cons w w1 w2 e es hst _ ih =>
    obtain ⟨m, a, r⟩ := e
    have : m = false := hm ⟨m, a, r⟩ (by simp)
    subst this
    exact .env a r hst (ih fun e he => hm e (by simp [he]))

/-- A run of `p.bind f` either has not left `p` (apart from unfolding), or consists of a finished run of `p` and a run of `f`. -/
theorem exec_bind_inv {α β : Type} {w w' : World} {p : Prog α} {f : α → Prog β} {q : Prog β} {tr : List Ev}
    (h : Exec w (p.bind f) tr w' q) :
    (∃ p', Exec w p tr w' p' ∧ q = p'.bind f) ∨
    ∃ t1 t2 w1 v, Exec w p t1 w1 (.ret v) ∧ Exec w1 (f v) t2 w' q ∧ tr = t1 ++ t2 := by
  generalize hp : p.bind f = pb at h
  induction h generalizing p with
  | refl w pb => exact .inl ⟨p, .refl w p, hp.symm⟩
  | env a r h hs ih =>
    rcases ih hp with ⟨p', h1, h2⟩ | ⟨t1, t2, w1, v, h1, h2, rfl⟩
    · exact .inl ⟨p', .env a r h h1, h2⟩
    · exact .inr ⟨_ :: t1, t2, w1, v, .env a r h h1, h2, rfl⟩
  | mine a k r h hs ih =>
    cases p with
    | ret v =>
      simp only [Prog.bind_ret] at hp
      refine .inr ⟨[], _, _, v, .refl _ _, ?_, rfl⟩
      rw [hp]; exact .mine a k r h hs
    | panic => cases hp
    | act a' k' =>
      simp only [Prog.bind_act] at hp
      cases hp
      rcases ih rfl with ⟨p', h1, h2⟩ | ⟨t1, t2, w1, v, h1, h2, rfl⟩
      · exact .inl ⟨p', .mine a k' r h h1, h2⟩
      · exact .inr ⟨_ :: t1, t2, w1, v, .mine a k' r h h1, h2, rfl⟩
    | loop s body k' => cases hp
  | @unroll w w2 σ β' s body k p' tr hs ih =>
    cases p with
    | ret v =>
      simp only [Prog.bind_ret] at hp
      refine .inr ⟨[], _, _, v, .refl _ _, ?_, rfl⟩
      rw [hp]; exact .unroll hs
    | panic => cases hp
    | act a' k' => cases hp
    | loop s' body' k' =>
      simp only [Prog.bind_loop] at hp
      cases hp
      have e : (Prog.unroll s body k').bind f = Prog.unroll s body fun b => (k' b).bind f := by
        unfold Prog.unroll
        generalize body s = bs
        have assoc : ∀ {γ δ : Type} (x : Prog γ) (g : γ → Prog δ) (h : δ → Prog β), (x.bind g).bind h = x.bind fun y => (g y).bind h := by
          intro γ δ x g h
          induction x with
          | ret v => rfl
          | panic => rfl
          | act a k ih => simp only [Prog.bind_act]; congr; funext r; exact ih r g
          | loop s b k _ ih => simp only [Prog.bind_loop]; congr; funext r; exact ih r g
        rw [assoc]
        congr; funext x
        cases x <;> rfl
      rcases ih e with ⟨p', h1, h2⟩ | ⟨t1, t2, w1, v, h1, h2, rfl⟩
      · exact .inl ⟨p', .unroll h1, h2⟩
      · exact .inr ⟨t1, t2, w1, v, .unroll h1, h2, rfl⟩

namespace Prog
theorem bind_assoc {α β γ : Type} (x : Prog α) (g : α → Prog β) (h : β → Prog γ) :
    (x.bind g).bind h = x.bind fun y => (g y).bind h := by
  induction x with
  | ret v => rfl
  | panic => rfl
  | act a k ih => simp only [Prog.bind_act]; congr; funext r; exact ih r g
  | loop s b k _ ih => simp only [Prog.bind_loop]; congr; funext r; exact ih r g
end Prog

/-- Sequencing runs. -/
theorem Exec.bind {α β : Type} {w w1 : World} {p p' : Prog α} {tr : List Ev} (h : Exec w p tr w1 p') (f : α → Prog β) :
    Exec w (p.bind f) tr w1 (p'.bind f) := by
  induction h with
  | refl w p => exact .refl _ _
  | env a r h _ ih => exact .env a r h ih
  | mine a k r h _ ih => exact .mine a _ r h ih
  | @unroll w w2 σ β' s body k p' tr _ ih =>
    refine .unroll ?_
    have e : (Prog.unroll s body k).bind f = Prog.unroll s body fun b => (k b).bind f := by
      unfold Prog.unroll
      rw [Prog.bind_assoc]
      congr; funext x; cases x <;> rfl
    rw [← e]; exact ih

namespace PC
variable {α β : Type}

theorem mono {w : World} {p : Prog α} {Q Q' : Post α} (h : PC w p Q) (hQ : ∀ tr w' o, Q tr w' o → Q' tr w' o) : PC w p Q' :=
  ⟨fun tr w' v he => hQ _ _ _ (h.1 tr w' v he), fun tr w' he => hQ _ _ _ (h.2 tr w' he)⟩

theorem ret {w : World} {v : α} {Q : Post α} (h : ∀ tr w', EnvSteps w tr w' → Q tr w' (some v)) : PC w (.ret v) Q := by
  refine ⟨?_, ?_⟩
  · intro tr w' u he
    obtain ⟨h1, h2⟩ := exec_ret_inv he
    cases h1; exact h tr w' h2
  · intro tr w' he
    obtain ⟨h1, _⟩ := exec_ret_inv he
    cases h1

theorem panic {w : World} {Q : Post α} (h : ∀ tr w', EnvSteps w tr w' → Q tr w' none) : PC w (.panic : Prog α) Q := by
  refine ⟨?_, ?_⟩
  · intro tr w' u he
    obtain ⟨h1, _⟩ := exec_panic_inv he
    cases h1
  · intro tr w' he
    exact h tr w' (exec_panic_inv he).2

theorem act {w : World} {a : Act} {k : a.Resp → Prog α} {Q : Post α}
    (h : ∀ t1 w1 r w2, EnvSteps w t1 w1 → a.step w1 r w2 → PC w2 (k r) fun t2 w' o => Q (t1 ++ ⟨true, a, r⟩ :: t2) w' o) :
    PC w (.act a k) Q := by
  refine ⟨?_, ?_⟩
  · intro tr w' v he
    rcases exec_act_inv he with ⟨h1, _⟩ | ⟨t1, w1, r, w2, t2, h1, h2, h3, rfl⟩
    · cases h1
    · exact (h t1 w1 r w2 h1 h2).1 t2 w' v h3
  · intro tr w' he
    rcases exec_act_inv he with ⟨h1, _⟩ | ⟨t1, w1, r, w2, t2, h1, h2, h3, rfl⟩
    · cases h1
    · exact (h t1 w1 r w2 h1 h2).2 t2 w' h3

theorem bind {w : World} {p : Prog α} {f : α → Prog β} {Q : Post β}
    (h : PC w p fun t1 w1 o => match o with
      | none => Q t1 w1 none
      | some u => PC w1 (f u) fun t2 w' o => Q (t1 ++ t2) w' o) : PC w (p.bind f) Q := by
  have key : ∀ p' : Prog α, ∀ v, p'.bind f = .ret v → ∃ u, p' = .ret u ∧ f u = .ret v := by
    intro p' v e; cases p' with
    | ret u => exact ⟨u, rfl, e⟩
    | panic => cases e
    | act => cases e
    | loop => cases e
  have key2 : ∀ p' : Prog α, p'.bind f = .panic → p' = .panic ∨ ∃ u, p' = .ret u ∧ f u = .panic := by
    intro p' e; cases p' with
    | ret u => exact .inr ⟨u, rfl, e⟩
    | panic => exact .inl rfl
    | act => cases e
    | loop => cases e
  refine ⟨?_, ?_⟩
  · intro tr w' v he
    rcases exec_bind_inv he with ⟨p', h1, h2⟩ | ⟨t1, t2, w1, u, h1, h2, rfl⟩
    · obtain ⟨u, rfl, hu⟩ := key p' v h2.symm
      have := (h.1 tr w' u h1).1 [] w' v (by rw [hu]; exact .refl _ _)
      simpa using this
    · exact (h.1 t1 w1 u h1).1 t2 w' v h2
  · intro tr w' he
    rcases exec_bind_inv he with ⟨p', h1, h2⟩ | ⟨t1, t2, w1, u, h1, h2, rfl⟩
    · rcases key2 p' h2.symm with rfl | ⟨u, rfl, hu⟩
      · exact h.2 tr w' h1
      · have := (h.1 tr w' u h1).2 [] w' (by rw [hu]; exact .refl _ _)
        simpa using this
    · exact (h.1 t1 w1 u h1).2 t2 w' h2

end PC
end KM
