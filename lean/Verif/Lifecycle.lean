import Verif.Dispatch
import Verif.TestApi
import Verif.Sim
/-
The whole mock: the goroutines of /repo/kafka-mock.go (callers of the exported functions, accept loops, connection handlers)
and what they share. Every connection handler runs the program `handle`; every caller of a posting function runs that function's
program from `Verif/TestApi.lean`. A schedule picks which goroutine acts next.

A step is one access to a shared variable. Blocks that only touch variables guarded by `km.mu`, with `km.mu` held, are one step.
Logging is left out. A racing read of the plain fields `km.l`, `km.cancelFn`, `km.listener` (C72) is taken to
return the old or the new value. Not modelled: Go's detection of a wait-group misuse inside `Add`.
-/
namespace KM

/-- Who called `RequestStop`: a test, `WaitForTermination` called by a test, `Restart`, or `WaitForTermination` called by `Restart`. -/
inductive StopBy where
  | test
  | wait
  | restart
  | restartWait
deriving DecidableEq, Repr

/-- The next line of `Start`, /repo/kafka-mock.go:45-64. -/
inductive StartPc where
  /-- line 46 -/
  | lock
  /-- line 49 -/
  | swap
  /-- line 50, the deferred unlock of line 47 while panicking -/
  | panicUnlock
  /-- lines 53-54 -/
  | reset
  /-- line 55 -/
  | unstop
  /-- lines 57-59 -/
  | derive
  /-- line 61 -/
  | addWg
  /-- line 62 -/
  | addInit
  /-- line 63 -/
  | spawn
  /-- line 47 (deferred) -/
  | unlock
deriving DecidableEq, Repr

/-- Inside `WaitGroup.Wait`: about to look at the counter; asleep; woken by the `Done` that brought the counter to zero. -/
inductive WaitPc where
  | enter
  | asleep
  | woken
deriving DecidableEq, Repr

/-- The next line of `RequestStop`, /repo/kafka-mock.go:66-87. -/
inductive StopPc where
  /-- line 67 -/
  | swap
  /-- line 69 -/
  | load
  /-- line 72 -/
  | init (k : WaitPc)
  /-- line 75 -/
  | lock
  /-- lines 76-80 -/
  | close
  /-- line 81 -/
  | unlock
  /-- line 84 -/
  | cancel
deriving DecidableEq, Repr

/-- Why an exported function panicked in its caller's goroutine. -/
inductive Panic where
  /-- line 50: "can't start more than once" -/
  | startTwice
  /-- sync: "WaitGroup is reused before previous Wait has returned" -/
  | waitGroupReused
  /-- line 168: `km.cancelFn` is nil -/
  | nilCancel
deriving DecidableEq, Repr

/-- The state of a goroutine of the test that calls exported functions of the mock. -/
inductive ApiPc where
  | idle
  | panicked (why : Panic)
  /-- in `Start`, called by a test or by `Restart` -/
  | start (k : StartPc) (byRestart : Bool)
  | stop (k : StopPc) (by' : StopBy)
  /-- line 91, in `WaitForTermination` called by a test or by `Restart` -/
  | wait (k : WaitPc) (byRestart : Bool)
  /-- line 177, at the end of `Restart` -/
  | restartInit (k : WaitPc)
  /-- line 168 -/
  | finish
  /-- in a function that works on the store, lines 96-106 and 181-200 -/
  | call (p : Prog Unit)

/-- The next line of `run`, /repo/kafka-mock.go:108-163. -/
inductive RunPc where
  /-- line 117 -/
  | listen
  /-- line 122 -/
  | setListener
  /-- line 126 -/
  | initDone
  /-- line 129 -/
  | accept
  /-- lines 137-144 -/
  | select
  /-- line 148 -/
  | lock
  /-- lines 149-158, including `newKafkaClient` (/repo/kafka-client.go:60-76), which starts the handler -/
  | register
  /-- line 159 -/
  | addActive
  /-- line 160 -/
  | addWg
  /-- line 161 -/
  | unlock
  /-- line 110 (deferred) -/
  | waitActive
  /-- line 111 (deferred) -/
  | storeStarted
  /-- line 112 (deferred) -/
  | wgDone
  | ended
deriving DecidableEq, Repr

/-- The next line of the close callback, /repo/kafka-mock.go:150-157. -/
inductive OcPc where
  /-- line 152 -/
  | lock
  /-- line 153 -/
  | delete
  /-- line 154 -/
  | active
  /-- line 155 -/
  | wg
  /-- line 156 -/
  | unlock
deriving DecidableEq, Repr

/-- A connection goroutine, /repo/kafka-client.go:78-140: the loop with what is left of it, then the deferred call of the close callback
(the deferred `kc.wg.Done()` and `kc.connected.Done()` concern wait groups nobody waits on unless `kafkaClient.Close` is called,
which the mock never does). -/
inductive ConnPc where
  | body (p : Prog Unit)
  | oc (k : OcPc)
  | ended

/-- An accept loop: its next line and its variable `cxnNumber` (line 123), which the close callbacks of its connections share. -/
structure RunG where
  pc : RunPc
  cxn : Nat
deriving DecidableEq, Repr

/-- A connection goroutine: the accept loop that started it, the number under which it was registered, the context it was given
(`km.l`, line 150), its state. -/
structure ConnG where
  gen : Nat
  num : Nat
  ctx : Nat
  pc : ConnPc

/-- Who holds `km.mu`. -/
inductive Holder where
  | api (i : Nat)
  | run (g : Nat)
  | conn (c : Nat)
deriving DecidableEq, Repr

/-- The `KafkaMock` of /repo/kafka-mock.go:15-30 and its goroutines. The n-th successful `Start` creates context n and accept loop n,
which opens listener n. -/
structure Sys where
  /-- parameters of the connection handlers (`serverPort`) -/
  sv : Server
  mu : Option Holder
  started : Bool
  stopped : Bool
  /-- `km.listener` -/
  listener : Option Nat
  /-- the calls of `listener.Close()` so far: which listener -/
  closes : List Nat
  /-- `km.l` and `km.cancelFn`; `none`: `km.l` is the parent lane and `km.cancelFn` is nil -/
  ctx : Option Nat
  /-- the calls of `km.cancelFn()` made by `RequestStop` so far: which context -/
  cancels : List Nat
  /-- the cancelled contexts -/
  done : List Nat
  /-- the parent lane is cancelled, and with it every context -/
  parentDone : Bool
  /-- counters of the wait groups -/
  wg : Nat
  active : Nat
  init : Nat
  /-- `km.clients`: connection number to connection goroutine -/
  clients : List (Nat × Nat)
  api : Nat → ApiPc
  runs : List RunG
  conns : List ConnG
  ds : Store
  clock : Int

/-- `NewKafkaMock`, /repo/kafka-mock.go:33-42. -/
def Sys.new (sv : Server) (clock : Int) : Sys where
  sv := sv
  mu := none
  started := false
  stopped := false
  listener := none
  closes := []
  ctx := none
  cancels := []
  done := []
  parentDone := false
  wg := 0
  active := 0
  init := 0
  clients := []
  api := fun _ => .idle
  runs := []
  conns := []
  ds := []
  clock := clock

/-- A panic outside the callers' goroutines ends the process. Simplification: at once. What the deferred functions of the goroutine and the other goroutines do until then is
in `Fall.lean`. -/
inductive Crash where
  /-- sync: "negative WaitGroup counter" -/
  | negative
  /-- line 119 -/
  | listen
  /-- line 132 -/
  | accept
  /-- /repo/kafka-client.go:114, 136 and panics inside the handlers -/
  | handler
deriving DecidableEq, Repr

/-- The result of letting a goroutine act. -/
inductive Out where
  /-- it cannot act now -/
  | blocked
  | crash (c : Crash)
  | ok (s : Sys)

/-- The exported functions of the mock. -/
inductive Call where
  | start
  | requestStop
  | waitForTermination
  | restart
  | finishRequests
  | simplePost (topic : Bytes) (partition : Int) (key value : Option Bytes)
  | extendedPost (topic : Bytes) (partition : Int) (key value : Option Bytes) (headers : List (Bytes × Option Bytes)) (timestamp : Int)
  | createPartitionTopics (partition : Int) (topics : List Bytes)
  | setConsumerGroupOffset (topic : Bytes) (partition : Int) (group : Bytes) (offset : I64)

/-- Where a call begins; `Restart` (lines 173-178) begins with `RequestStop`. -/
def Call.entry : Call → ApiPc
  | .start => .start .lock false
  | .requestStop => .stop .swap .test
  | .waitForTermination => .wait .enter false
  | .restart => .stop .swap .restart
  | .finishRequests => .finish
  | .simplePost t p k v => .call (KM.simplePost t p k v)
  | .extendedPost t p k v h ts => .call (KM.extendedPost t p k v h ts)
  | .createPartitionTopics p ts => .call (KM.createPartitionTopics p ts)
  | .setConsumerGroupOffset t p g o => .call (KM.setConsumerGroupOffset t p g o)

/-- Where the caller of `RequestStop` goes on: line 92 is the end of `WaitForTermination`, line 175 follows 174, line 176 follows 175. -/
def StopBy.next : StopBy → ApiPc
  | .test => .idle
  | .wait => .idle
  | .restart => .wait .enter true
  | .restartWait => .start .lock true

namespace Sys

def setApi (s : Sys) (i : Nat) (pc : ApiPc) : Sys := { s with api := fun j => if j = i then pc else s.api j }

def setRun (s : Sys) (g : Nat) (r : RunG) : Sys := { s with runs := s.runs.set g r }

def setConn (s : Sys) (c : Nat) (k : ConnG) : Sys := { s with conns := s.conns.set c k }

/-- The contexts a handler or caller sees as cancelled. -/
def isDone (s : Sys) (ctx : Nat) : Bool := s.parentDone || s.done.contains ctx

/-- What a goroutine that was given context `ctx` sees of the shared data. -/
def view (s : Sys) (ctx : Nat) : World := ⟨s.ds, s.clock, s.isDone ctx⟩

def setView (s : Sys) (ctx : Nat) (w : World) : Sys :=
  { s with ds := w.ds, clock := w.clock, done := if w.cancelled then ctx :: s.done else s.done }

end Sys

/-- The `Done` that brings `km.wg` to zero wakes those who wait for it. -/
def ApiPc.wakeWg : ApiPc → ApiPc
  | .wait .asleep r => .wait .woken r
  | pc => pc

/-- The `Done` that brings `km.initializing` to zero wakes those who wait for it. -/
def ApiPc.wakeInit : ApiPc → ApiPc
  | .stop (.init .asleep) b => .stop (.init .woken) b
  | .restartInit .asleep => .restartInit .woken
  | pc => pc

namespace Sys

/-- `km.wg.Done()` -/
def wgDone (s : Sys) : Out :=
  match s.wg with
  | 0 => .crash .negative
  | 1 => .ok { s with wg := 0, api := fun j => (s.api j).wakeWg }
  | n + 2 => .ok { s with wg := n + 1 }

/-- `km.initializing.Done()` -/
def initDone (s : Sys) : Out :=
  match s.init with
  | 0 => .crash .negative
  | 1 => .ok { s with init := 0, api := fun j => (s.api j).wakeInit }
  | n + 2 => .ok { s with init := n + 1 }

/-- `km.active.Done()`; the only waiter is the accept loop, line 110 -/
def activeDone (s : Sys) : Out :=
  match s.active with
  | 0 => .crash .negative
  | n + 1 => .ok { s with active := n }

/-- `km.mu.Lock()`, then `s'`. -/
def lockMu (s : Sys) (h : Holder) (s' : Sys → Sys) : Out :=
  if s.mu = none then .ok (s' { s with mu := some h }) else .blocked

/-- `WaitGroup.Wait` on a counter with this value, by caller `i`: `at' k` is its state inside `Wait`, `after` its state afterwards. -/
def waitStep (s : Sys) (i : Nat) (counter : Nat) (k : WaitPc) (at' : WaitPc → ApiPc) (after : ApiPc) : Out :=
  match k with
  | .enter => .ok (s.setApi i (if counter = 0 then after else at' .asleep))
  | .asleep => .blocked
  | .woken => .ok (s.setApi i (if counter = 0 then after else .panicked .waitGroupReused))

/-- `Start`, /repo/kafka-mock.go:45-64. -/
def startStep (s : Sys) (i : Nat) (r : Bool) : StartPc → Out
  | .lock => s.lockMu (.api i) fun s => s.setApi i (.start .swap r)
  | .swap => if s.started then .ok (s.setApi i (.start .panicUnlock r)) else .ok (({ s with started := true } : Sys).setApi i (.start .reset r))
  | .panicUnlock => .ok (({ s with mu := none } : Sys).setApi i (.panicked .startTwice))
  | .reset => .ok (({ s with listener := none, clients := [] } : Sys).setApi i (.start .unstop r))
  | .unstop => .ok (({ s with stopped := false } : Sys).setApi i (.start .derive r))
  | .derive => .ok (({ s with ctx := some s.runs.length } : Sys).setApi i (.start .addWg r))
  | .addWg => .ok (({ s with wg := s.wg + 1 } : Sys).setApi i (.start .addInit r))
  | .addInit => .ok (({ s with init := s.init + 1 } : Sys).setApi i (.start .spawn r))
  | .spawn => .ok (({ s with runs := s.runs ++ [⟨.listen, 0⟩] } : Sys).setApi i (.start .unlock r))
  | .unlock => .ok (({ s with mu := none } : Sys).setApi i (if r then .restartInit .enter else .idle))

/-- `RequestStop`, /repo/kafka-mock.go:66-87. -/
def stopStep (s : Sys) (i : Nat) (b : StopBy) : StopPc → Out
  | .swap => .ok (({ s with stopped := true } : Sys).setApi i (if s.stopped then b.next else .stop .load b))
  | .load => .ok (s.setApi i (if s.started then .stop (.init .enter) b else b.next))
  | .init k => s.waitStep i s.init k (fun k => .stop (.init k) b) (.stop .lock b)
  | .lock => s.lockMu (.api i) fun s => s.setApi i (.stop .close b)
  | .close => match s.listener with
    | some g => .ok (({ s with closes := g :: s.closes, listener := none } : Sys).setApi i (.stop .unlock b))
    | none => .ok (s.setApi i (.stop .unlock b))
  | .unlock => .ok (({ s with mu := none } : Sys).setApi i (.stop .cancel b))
  | .cancel => match s.ctx with
    | some c => .ok (({ s with cancels := c :: s.cancels, done := c :: s.done } : Sys).setApi i b.next)
    | none => .ok (s.setApi i (.panicked .nilCancel))

/-- A caller of exported functions acts; when it is idle it begins the given call. A panic in the caller's goroutine may be recovered. -/
def apiStep (s : Sys) (i : Nat) (c : Call) : Out :=
  match s.api i with
  | .idle => .ok (s.setApi i c.entry)
  | .panicked _ => .ok (s.setApi i .idle)
  | .start k r => s.startStep i r k
  | .stop k b => s.stopStep i b k
  | .wait k r => s.waitStep i s.wg k (fun k => .wait k r) (.stop .swap (if r then .restartWait else .wait))
  | .restartInit k => s.waitStep i s.init k .restartInit .idle
  | .finish => match s.ctx with
    | some c => .ok (({ s with done := c :: s.done } : Sys).setApi i .idle)
    | none => .ok (s.setApi i (.panicked .nilCancel))
  | .call (.ret ()) => .ok (s.setApi i .idle)
  | .call .panic => .crash .handler
  | .call _ => .blocked

/-- Accept loop `g` acts, /repo/kafka-mock.go:108-163. `ok` is the result of `net.Listen` or `Accept` where it matters; once the listener
is closed, `Accept` fails with an error that `wasSocketClosed` recognises. -/
def runStep (s : Sys) (g : Nat) (ok : Bool) : Out :=
  match s.runs[g]? with
  | none => .blocked
  | some r =>
    let goto : RunPc → Sys → Sys := fun pc s => s.setRun g { r with pc := pc }
    match r.pc with
    | .listen => if ok then .ok (goto .setListener s) else .crash .listen
    | .setListener => .ok (goto .initDone { s with listener := some g })
    | .initDone => match s.initDone with
      | .ok s' => .ok (goto .accept s')
      | o => o
    | .accept =>
      if s.closes.contains g then .ok (goto .waitActive s)
      else if ok then .ok (goto .select s) else .crash .accept
    | .select => .ok (goto (if s.parentDone || s.ctx.any s.isDone then .accept else .lock) s)
    | .lock => s.lockMu (.run g) (goto .register)
    | .register =>
      .ok { s with runs := s.runs.set g ⟨.addActive, r.cxn + 1⟩
                   conns := s.conns ++ [⟨g, r.cxn + 1, s.ctx.getD 0, .body (handle s.sv)⟩]
                   clients := GoMap.set s.clients (r.cxn + 1) s.conns.length }
    | .addActive => .ok (goto .addWg { s with active := s.active + 1 })
    | .addWg => .ok (goto .unlock { s with wg := s.wg + 1 })
    | .unlock => .ok (goto .accept { s with mu := none })
    | .waitActive => if s.active = 0 then .ok (goto .storeStarted s) else .blocked
    | .storeStarted => .ok (goto .wgDone { s with started := false })
    | .wgDone => match s.wgDone with
      | .ok s' => .ok (goto .ended s')
      | o => o
    | .ended => .blocked

/-- Connection goroutine `c` acts after its loop has ended, /repo/kafka-client.go:79-83 and /repo/kafka-mock.go:150-157. The callback deletes
the entry with the number that the variable `cxnNumber` has now. -/
def connStep (s : Sys) (c : Nat) : Out :=
  match s.conns[c]? with
  | none => .blocked
  | some k =>
    let goto : ConnPc → Sys → Sys := fun pc s => s.setConn c { k with pc := pc }
    match k.pc with
    | .body (.ret ()) => .ok (goto (.oc .lock) s)
    | .body .panic => .crash .handler
    | .body _ => .blocked
    | .oc .lock => s.lockMu (.conn c) (goto (.oc .delete))
    | .oc .delete => match s.runs[k.gen]? with
      | some r => .ok (goto (.oc .active) { s with clients := GoMap.erase s.clients r.cxn })
      | none => .blocked
    | .oc .active => match s.activeDone with
      | .ok s' => .ok (goto (.oc .wg) s')
      | o => o
    | .oc .wg => match s.wgDone with
      | .ok s' => .ok (goto (.oc .unlock) s')
      | o => o
    | .oc .unlock => .ok (goto .ended { s with mu := none })
    | .ended => .blocked

/-- Who acts next. -/
inductive Choice where
  | api (i : Nat) (c : Call)
  | run (g : Nat) (ok : Bool)
  | conn (c : Nat)
  /-- the parent lane is cancelled -/
  | parentCancel

/-- One step outside the handlers' loops and the posting functions. -/
def next (s : Sys) : Choice → Out
  | .api i c => s.apiStep i c
  | .run g ok => s.runStep g ok
  | .conn c => s.connStep c
  | .parentCancel => .ok { s with parentDone := true }

end Sys

/-- What happened in a step. -/
inductive SEv where
  | life (c : Sys.Choice)
  /-- connection `c` performed an action -/
  | conn (c : Nat) (a : Act) (r : a.Resp)
  /-- caller `i` performed an action -/
  | call (i : Nat) (a : Act) (r : a.Resp)
  /-- time passed -/
  | tick (d : Nat)
  /-- connection `c` entered a round of its loop -/
  | unroll (c : Nat)

/-- One step of the mock. -/
inductive Sys.Step : Sys → SEv → Sys → Prop where
  | life {s s' : Sys} {c : Choice} (h : s.next c = .ok s') : Step s (.life c) s'
  | conn {s : Sys} {c : Nat} {k : ConnG} {a : Act} {f : a.Resp → Prog Unit} {r : a.Resp} {w : World} (hc : s.conns[c]? = some k)
      (hp : k.pc = .body (.act a f)) (ha : a.step (s.view k.ctx) r w) :
      Step s (.conn c a r) ((s.setView k.ctx w).setConn c { k with pc := .body (f r) })
  | unroll {s : Sys} {c : Nat} {k : ConnG} {σ β : Type} {x : σ} {body : σ → Prog (σ ⊕ β)} {f : β → Prog Unit} (hc : s.conns[c]? = some k)
      (hp : k.pc = .body (.loop x body f)) : Step s (.unroll c) (s.setConn c { k with pc := .body (Prog.unroll x body f) })
  | call {s : Sys} {i : Nat} {a : Act} {f : a.Resp → Prog Unit} {r : a.Resp} {w : World} (hp : s.api i = .call (.act a f))
      (ha : a.step (s.view 0) r w) : Step s (.call i a r) (({ s with ds := w.ds, clock := w.clock } : Sys).setApi i (.call (f r)))
  | tick {s : Sys} (d : Nat) : Step s (.tick d) { s with clock := s.clock + d }

/-- A run of the mock. -/
inductive Sys.Run : Sys → List SEv → Sys → Prop where
  | nil (s : Sys) : Run s [] s
  | cons {s s1 s2 : Sys} {e : SEv} {es : List SEv} (h : Step s e s1) (hs : Run s1 es s2) : Run s (e :: es) s2

/-- A state the mock can get into. -/
def Sys.Reachable (s : Sys) : Prop := ∃ sv clock tr, Sys.Run (Sys.new sv clock) tr s

end KM
