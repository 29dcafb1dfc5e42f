import Verif.Store
/-
The maps of topics and partitions, with what Go's runtime does about them. A map has a mark that is set while an entry is being stored; a look-up, a store and a step of a `range`
end the process ("fatal error: concurrent map ...") when they meet the mark. `createTopic`, `createPartition`, `getTopic`, `getPartition` take a mutex; the two `range` statements of
SyncGroup do not. A `range` over a map yields each entry that is there from the beginning once; an entry that is stored meanwhile may be yielded or not. In the main model
(`Act.rangeTopics`, `Act.rangePartitions`) each `range` is one access.
-/
namespace KM.Ranges

/-- The topics and the numbers of their partitions, in the order in which they were created. -/
abbrev Topics := List (Bytes × List I32)

/-- The partitions of a topic. -/
def parts (ts : Topics) (t : Bytes) : Option (List I32) := (ts.find? fun e => e.1 = t).map (·.2)

/-- A partition is added to a topic. -/
def addPart (ts : Topics) (t : Bytes) (p : I32) : Topics := ts.map fun e => if e.1 = t then (e.1, e.2 ++ [p]) else e

/-- What a goroutine does. -/
inductive Job where
  /-- `createTopic(t)` and `createPartition(p)` of it, /repo/kafka-mock.go:97-98,103-104,183-184 -/
  | make (t : Bytes) (p : I32)
  /-- `getTopic(t)` and, if there is one, `getPartition(p)` of it: /repo/fetch.go:62-67, /repo/list_offsets.go:50-56, /repo/offset_commit.go:49-63, /repo/offset_fetch.go:43-49,
  /repo/kafka-mock.go:190-192. (For several partitions the request does so several times.) -/
  | find (t : Bytes) (p : I32)
  /-- `makeMemberAssignment`, /repo/sync_group.go:56-66 -/
  | sync
deriving DecidableEq

/-- Where a goroutine is; `make` says whether what is missing is created. -/
inductive PC where
  | idle
  /-- at `ds.mu.Lock()`, /repo/datastore.go:51,65 -/
  | start (make : Bool) (t : Bytes) (p : I32)
  /-- about to look up `ds.Topics[name]`, /repo/datastore.go:54,68 -/
  | look (make : Bool) (t : Bytes) (p : I32)
  /-- about to store `ds.Topics[name]`, /repo/datastore.go:59 -/
  | store (t : Bytes) (p : I32)
  /-- storing it: the mark of the map is set -/
  | storing (t : Bytes) (p : I32)
  /-- at `ds.mu.Unlock()`; `there` says whether there is a topic -/
  | found (make there : Bool) (t : Bytes) (p : I32)
  /-- at `kp.mu.Lock()` of the topic, /repo/datastore.go:72,88 -/
  | startPart (make : Bool) (t : Bytes) (p : I32)
  /-- about to look up `kp.Partitions[number]`, /repo/datastore.go:75,91 -/
  | lookPart (make : Bool) (t : Bytes) (p : I32)
  /-- about to store `kp.Partitions[number]`, /repo/datastore.go:82 -/
  | storePart (t : Bytes) (p : I32)
  /-- storing it: the mark of the map is set -/
  | storingPart (t : Bytes) (p : I32)
  /-- at `kp.mu.Unlock()` of the topic -/
  | foundPart (t : Bytes)
  /-- about to begin `range ds.Topics`, /repo/sync_group.go:59 -/
  | sync
  /-- at the next step of `range ds.Topics`. `began` is what there was when it began, `done` what has been assigned. -/
  | topics (began done : Topics)
  /-- at the next step of `range topic.Partitions`, /repo/sync_group.go:61, of `t`; `beganP` and `doneP` as above -/
  | partitions (began done : Topics) (t : Bytes) (beganP doneP : List I32)
  /-- has assigned everything -/
  | assigned (began done : Topics)
deriving DecidableEq

/-- The maps, their marks and mutexes, and the goroutines. -/
structure State where
  ds : Topics
  /-- the mark of `ds.Topics` -/
  mark : Bool
  /-- the marks of `kp.Partitions` -/
  markP : Bytes → Bool
  /-- who has `ds.mu` -/
  mutex : Option Nat
  /-- who has `kp.mu` of a topic -/
  mutexP : Bytes → Option Nat
  pc : Nat → PC
  /-- the runtime has ended the process -/
  dead : Bool

/-- /repo/datastore.go:44-48 -/
def State.new : State := ⟨[], false, fun _ => false, none, fun _ => none, fun _ => .idle, false⟩

/-- The goroutine is somewhere else. -/
def State.goto (s : State) (t : Nat) (c : PC) : State := { s with pc := fun u => if u = t then c else s.pc u }

/-- An access to a map whose mark may be set. -/
def State.unless (s : State) (mark : Bool) (x : Option State) : Option State := if mark then some { s with dead := true } else x

/-- Set one entry. -/
def put {α : Type} (f : Bytes → α) (t : Bytes) (x : α) : Bytes → α := fun u => if u = t then x else f u

/-- A step of a goroutine. In a `range`, `pick` is the entry that is yielded (by its place), or `none` for the end. -/
def State.step (s : State) (n : Nat) (pick : Option Nat) : Option State := match s.pc n with
  | .idle => none
  | .start make t p => match s.mutex with
    | none => some { s.goto n (.look make t p) with mutex := some n }
    | some _ => none
  | .look make t p => s.unless s.mark <| match parts s.ds t with
    | some _ => some (s.goto n (.found make true t p))
    | none => if make then some (s.goto n (.store t p)) else some (s.goto n (.found make false t p))
  | .store t p => s.unless s.mark (some { s.goto n (.storing t p) with mark := true })
  | .storing t p => some { s.goto n (.found true true t p) with mark := false, ds := s.ds ++ [(t, [])] }
  | .found make there t p => some { s.goto n (if there then .startPart make t p else .idle) with mutex := none }
  | .startPart make t p => match s.mutexP t with
    | none => some { s.goto n (.lookPart make t p) with mutexP := put s.mutexP t (some n) }
    | some _ => none
  | .lookPart make t p => s.unless (s.markP t) <|
    if p ∈ (parts s.ds t).getD [] then some (s.goto n (.foundPart t)) else if make then some (s.goto n (.storePart t p)) else some (s.goto n (.foundPart t))
  | .storePart t p => s.unless (s.markP t) (some { s.goto n (.storingPart t p) with markP := put s.markP t true })
  | .storingPart t p => some { s.goto n (.foundPart t) with markP := put s.markP t false, ds := addPart s.ds t p }
  | .foundPart t => some { s.goto n .idle with mutexP := put s.mutexP t none }
  | .sync => some (s.goto n (.topics s.ds []))
  | .topics began done => match pick with
    | some i => match s.ds[i]? with
      | none => none
      | some (t, ps) => if t ∈ done.map (·.1) then none else s.unless s.mark (some (s.goto n (.partitions began done t ps [])))
    | none => if began.all (·.1 ∈ done.map (·.1)) then s.unless s.mark (some (s.goto n (.assigned began done))) else none
  | .partitions began done t beganP doneP => match pick with
    | some i => match ((parts s.ds t).getD [])[i]? with
      | none => none
      | some p => if p ∈ doneP then none else s.unless (s.markP t) (some (s.goto n (.partitions began done t beganP (doneP ++ [p]))))
    | none => if beganP.all (· ∈ doneP) then s.unless (s.markP t) (some (s.goto n (.topics began (done ++ [(t, doneP)])))) else none
  | .assigned _ _ => some (s.goto n .idle)

/-- Where a job begins. -/
def Job.entry : Job → PC
  | .make t p => .start true t p
  | .find t p => .start false t p
  | .sync => .sync

/-- A step of a goroutine, or the beginning of a job. -/
inductive Move where
  | begin (n : Nat) (j : Job)
  | go (n : Nat) (pick : Option Nat)
deriving DecidableEq

/-- A move. Nothing moves when the process has ended. -/
def State.next (s : State) : Move → Option State
  | .begin n j => if s.dead then none else match s.pc n with
    | .idle => some (s.goto n j.entry)
    | _ => none
  | .go n pick => if s.dead then none else s.step n pick

/-- The state after these moves. -/
def State.play : List Move → State → Option State
  | [], s => some s
  | m :: ms, s => match s.next m with
    | none => none
    | some s' => State.play ms s'

end KM.Ranges
