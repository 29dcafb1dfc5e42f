import Verif.LifeShape
import Verif.Heap
/-
The data store as it is in memory: topics and partitions are objects reached through pointers, each with its own mutex, and the functions of
/repo/datastore.go are sequences of single accesses between `Lock` and `Unlock`. Everything else in this development takes such a function to be one
step on a store addressed by names (`Act.step`); here that view is justified: every run of the mock with pointers and mutexes is a run of
the mock of `Verif/Lifecycle.lean` (`Fine.Run.refines`).
-/
namespace KM

/-- A goroutine that works on the store: a connection, or a caller of an exported function. -/
inductive Tid where
  | conn (c : Nat)
  | api (i : Nat)
deriving DecidableEq, Repr

/-- The mutexes of the store: `ds.mu` (/repo/datastore.go:10), `kt.mu` of a topic object (line 15), `kp.mu` of a partition object (line 20). -/
inductive Lock where
  | store
  | topic (a : Nat)
  | part (x : Nat)
deriving DecidableEq, Repr

/-- The store in memory, /repo/datastore.go:8-28. Objects are numbered in the order of their allocation. -/
structure Mem where
  /-- who holds a mutex -/
  locks : Lock → Option Tid
  /-- `ds.Topics` -/
  topics : List (Bytes × Nat)
  /-- `kt.Partitions` of a topic object -/
  parts : Nat → List (I32 × Nat)
  /-- the fields of a partition object; `Index`, `ErrorCode` and `Metadata` are not assigned after allocation -/
  data : Nat → Partition
  /-- number of topic objects allocated -/
  nT : Nat
  /-- number of partition objects allocated -/
  nP : Nat

/-- `newKafkaDataStore`, /repo/datastore.go:44-48 -/
def Mem.new : Mem where
  locks := fun _ => none
  topics := []
  parts := fun _ => []
  data := fun _ => Store.newPartition 0
  nT := 0
  nP := 0

/-- The store addressed by names. -/
def Mem.load (m : Mem) : Store := m.topics.map fun e => (e.1, (m.parts e.2).map fun d => (d.1, m.data d.2))

def Mem.setLock (m : Mem) (k : Lock) (h : Option Tid) : Mem := { m with locks := fun j => if j = k then h else m.locks j }

/-- Assignment to a field of a partition object. -/
def Mem.setData (m : Mem) (x : Nat) (f : Partition → Partition) : Mem := { m with data := fun y => if y = x then f (m.data x) else m.data y }

/-- What a goroutine has found out since it locked the mutex. -/
inductive Seen where
  /-- /repo/datastore.go:54: the topic is not in the map -/
  | noTopic (t : Bytes)
  /-- /repo/datastore.go:75: the partition is not in the map -/
  | noPart (p : I32)
  /-- /repo/datastore.go:118: the records, read to be appended to -/
  | recs (rs : List Record)
  /-- /repo/offset_commit.go:67-68: the offset is higher than the committed one -/
  | low (g : Bytes) (o : I64)
  /-- /repo/datastore.go:125-126: the group has no entry -/
  | noGroup (g : Bytes)
  /-- /repo/fetch.go:83: the index is below the number of records -/
  | below (i : Int)
deriving DecidableEq, Repr

/-- Where a goroutine is with respect to the functions of the store. -/
inductive LockPc where
  /-- outside -/
  | out
  /-- between `Lock` and `Unlock`, with what it has found out -/
  | inside (k : Lock) (s : Option Seen)
  /-- its work is done, the result is known, `Unlock` is next -/
  | leave (k : Lock)
deriving DecidableEq, Repr

/-- The pointers in a goroutine's variables, by what they were obtained for, and where it is. The variables of an earlier call or request are taken to
live on (they are not used). -/
structure Locals where
  /-- `kt` -/
  kt : Bytes → Option Nat
  /-- `kp` -/
  kp : Bytes → I32 → Option Nat
  pc : LockPc

def Locals.new : Locals := ⟨fun _ => none, fun _ _ => none, .out⟩

def Locals.setT (l : Locals) (t : Bytes) (a : Option Nat) : Locals := { l with kt := fun u => if u = t then a else l.kt u }

def Locals.setP (l : Locals) (t : Bytes) (p : I32) (x : Option Nat) : Locals :=
  { l with kp := fun u q => if u = t ∧ q = p then x else l.kp u q }

def Locals.goto (l : Locals) (pc : LockPc) : Locals := { l with pc := pc }

/-- Result of letting a goroutine make one access. -/
inductive MOut (α : Type) where
  /-- it cannot act: the mutex is held by another goroutine, or a pointer is nil -/
  | blocked
  /-- it goes on inside the function -/
  | go (m : Mem) (l : Locals)
  /-- it has made the access that settles the result of the function -/
  | done (r : α) (m : Mem) (l : Locals)

/-- The mutex of a function that locks one; none also if the pointer is nil. -/
def Act.lock (l : Locals) : Act → Option Lock
  | .createTopic _ | .getTopic _ => some .store
  | .createPartition t _ | .getPartition t _ => (l.kt t).map .topic
  | .post t p _ | .commit t p _ _ | .groupCommitted t p _ | .setOffset t p _ _ | .fetchRecord t p _ => (l.kp t p).map .part
  | _ => none

/-- The accesses of a function between `Lock` and `Unlock`: `createTopic` /repo/datastore.go:54-61, `getTopic` line 68, `createPartition` lines 75-84,
`getPartition` line 91, `postRecord` line 118 (the record is built from local variables), `groupCommittedOffset` lines 125-129,
offsetCommitV2 /repo/offset_commit.go:67-71, `SetConsumerGroupOffset` /repo/kafka-mock.go:197, fetchV2 /repo/fetch.go:83-85. -/
def critical : (a : Act) → Lock → Option Seen → Mem → Locals → MOut a.Resp
  | .createTopic t, k, none, m, l => match GoMap.get m.topics t with
    | some a => .done () m ((l.setT t (some a)).goto (.leave k))
    | none => .go m (l.goto (.inside k (some (.noTopic t))))
  | .createTopic t, k, some (.noTopic t'), m, l =>
    if t' = t then .done () { m with topics := GoMap.set m.topics t m.nT, nT := m.nT + 1 } ((l.setT t (some m.nT)).goto (.leave k)) else .blocked
  | .getTopic t, k, none, m, l => .done (GoMap.get m.topics t).isSome m ((l.setT t (GoMap.get m.topics t)).goto (.leave k))
  | .createPartition t p, .topic a, none, m, l => match GoMap.get (m.parts a) p with
    | some x => .done () m ((l.setP t p (some x)).goto (.leave (.topic a)))
    | none => .go m (l.goto (.inside (.topic a) (some (.noPart p))))
  | .createPartition t p, .topic a, some (.noPart p'), m, l =>
    if p' = p then
      .done () { m with parts := fun b => if b = a then GoMap.set (m.parts a) p m.nP else m.parts b
                        data := fun y => if y = m.nP then Store.newPartition p else m.data y
                        nP := m.nP + 1 } ((l.setP t p (some m.nP)).goto (.leave (.topic a)))
    else .blocked
  | .getPartition t p, .topic a, none, m, l =>
    .done (GoMap.get (m.parts a) p).isSome m ((l.setP t p (GoMap.get (m.parts a) p)).goto (.leave (.topic a)))
  | .post _ _ _, .part x, none, m, l => .go m (l.goto (.inside (.part x) (some (.recs (m.data x).records))))
  | .post _ _ rec, .part x, some (.recs rs), m, l =>
    .done () (m.setData x fun d => { d with records := rs ++ [rec] }) (l.goto (.leave (.part x)))
  | .commit _ _ g o, .part x, none, m, l =>
    if ((GoMap.get (m.data x).committed g).getD 0).toInt < o.toInt then .go m (l.goto (.inside (.part x) (some (.low g o))))
    else .done () m (l.goto (.leave (.part x)))
  | .commit _ _ g o, .part x, some (.low g' o'), m, l =>
    if g' = g ∧ o' = o then .done () (m.setData x fun d => { d with committed := GoMap.set d.committed g o }) (l.goto (.leave (.part x))) else .blocked
  | .groupCommitted _ _ g, .part x, none, m, l => match GoMap.get (m.data x).committed g with
    | some o => .done o m (l.goto (.leave (.part x)))
    | none => .go m (l.goto (.inside (.part x) (some (.noGroup g))))
  | .groupCommitted _ _ g, .part x, some (.noGroup g'), m, l =>
    if g' = g then .done 0 (m.setData x fun d => { d with committed := GoMap.set d.committed g 0 }) (l.goto (.leave (.part x))) else .blocked
  | .setOffset _ _ g o, .part x, none, m, l =>
    .done () (m.setData x fun d => { d with committed := GoMap.set d.committed g o }) (l.goto (.leave (.part x)))
  | .fetchRecord _ _ i, .part x, none, m, l =>
    if i < ((m.data x).records.length : Int) then .go m (l.goto (.inside (.part x) (some (.below i)))) else .done (some none) m (l.goto (.leave (.part x)))
  | .fetchRecord _ _ i, .part x, some (.below i'), m, l =>
    if i' = i then .done (if i < 0 then none else some (m.data x).records[i.toNat]?) m (l.goto (.leave (.part x))) else .blocked
  | _, _, _, _, _ => .blocked

/-- Accesses without lock: `kp.Index`, `kp.ErrorCode`, `kp.Metadata` (/repo/offset_fetch.go:66-69), `len(kp.Records)` and `kp.Records[i]`
(/repo/list_offsets.go:63-76), `range ds.Topics`, `range topic.Partitions` and `par.Index` (/repo/sync_group.go:59-63). Each is one access here; the
iteration over a map gives its entries in the order of the list, or any other (`Act.upTo`). -/
def unlocked : (a : Act) → Mem → Locals → MOut a.Resp
  | .partInfo t p, m, l => match l.kp t p with
    | some x => .done ((m.data x).index, (m.data x).errorCode, (m.data x).metadata) m l
    | none => .blocked
  | .numRecords t p, m, l => match l.kp t p with
    | some x => .done (m.data x).records.length m l
    | none => .blocked
  | .recordAt t p i, m, l => match l.kp t p with
    | some x => .done (if i < 0 then none else (m.data x).records[i.toNat]?) m l
    | none => .blocked
  | .rangeTopics, m, l => .done (GoMap.keys m.topics) m { l with kt := fun t => (GoMap.get m.topics t).or (l.kt t) }
  | .rangePartitions t, m, l => match l.kt t with
    | some a => .done ((m.parts a).map fun e => (m.data e.2).index) m l
    | none => .blocked
  | _, _, _ => .blocked

/-- One access of goroutine `me`, whose next action is `a`. -/
def micro (me : Tid) (a : Act) (m : Mem) (l : Locals) : MOut a.Resp :=
  match l.pc with
  | .out => match a.lock l with
    | some k => if m.locks k = none then .go (m.setLock k (some me)) (l.goto (.inside k none)) else .blocked
    | none => unlocked a m l
  | .inside k s => if a.lock l = some k then critical a k s m l else .blocked
  | .leave _ => .blocked

/-- Results that differ only in the order in which Go visits a map. -/
def Act.upTo : (a : Act) → a.Resp → a.Resp → Prop
  | .rangeTopics, r, r' => r'.Perm r
  | .rangePartitions _, r, r' => r'.Perm r
  | _, r, r' => r' = r

/-- The actions on the store. -/
def Act.onStore : Act → Bool
  | .createTopic _ | .getTopic _ | .createPartition _ _ | .getPartition _ _ | .post _ _ _ | .commit _ _ _ _ | .groupCommitted _ _ _
  | .setOffset _ _ _ _ | .partInfo _ _ | .numRecords _ _ | .recordAt _ _ _ | .fetchRecord _ _ _ | .rangeTopics | .rangePartitions _ => true
  | _ => false

/-- The mock with the store in memory. The field `ds` of `sys` is not used. -/
structure Fine where
  sys : Sys
  mem : Mem
  loc : Tid → Locals

def Fine.new (sv : Server) (clock : Int) : Fine := ⟨Sys.new sv clock, Mem.new, fun _ => Locals.new⟩

/-- The goroutine that makes a step of the mock, if it may also work on the store. -/
def SEv.by : SEv → Option Tid
  | .life (.api i _) => some (.api i)
  | .life (.conn c) => some (.conn c)
  | .conn c _ _ => some (.conn c)
  | .unroll c => some (.conn c)
  | .call i _ _ => some (.api i)
  | _ => none

/-- The step is not an action on the store. -/
def SEv.quiet : SEv → Bool
  | .conn _ a _ => !a.onStore
  | .call _ a _ => !a.onStore
  | _ => true

/-- What happened. -/
inductive FEv where
  /-- a step of the mock; for an action on the store: the access that settles its result -/
  | sys (e : SEv)
  /-- another access of a goroutine to the store or its mutexes -/
  | mem (t : Tid)

def Fine.setLoc (F : Fine) (t : Tid) (l : Locals) : Tid → Locals := fun u => if u = t then l else F.loc u

/-- One step of the mock with the store in memory. -/
inductive Fine.Step : Fine → FEv → Fine → Prop where
  /-- a step that does not concern the store, by a goroutine that is not inside a function of the store -/
  | other {F : Fine} {e : SEv} {s : Sys} (hq : e.quiet = true) (ho : ∀ t, e.by = some t → (F.loc t).pc = .out) (h : Sys.Step F.sys e s) :
      Step F (.sys e) { F with sys := s }
  | connGo {F : Fine} {c : Nat} {k : ConnG} {a : Act} {f : a.Resp → Prog Unit} {m : Mem} {l : Locals} (hc : F.sys.conns[c]? = some k)
      (hp : k.pc = .body (.act a f)) (h : micro (.conn c) a F.mem (F.loc (.conn c)) = .go m l) :
      Step F (.mem (.conn c)) { F with mem := m, loc := F.setLoc (.conn c) l }
  | connDone {F : Fine} {c : Nat} {k : ConnG} {a : Act} {f : a.Resp → Prog Unit} {r r' : a.Resp} {m : Mem} {l : Locals}
      (hc : F.sys.conns[c]? = some k) (hp : k.pc = .body (.act a f)) (h : micro (.conn c) a F.mem (F.loc (.conn c)) = .done r m l) (hr : a.upTo r r') :
      Step F (.sys (.conn c a r'))
        { sys := (F.sys.setView k.ctx (F.sys.view k.ctx)).setConn c { k with pc := .body (f r') }, mem := m, loc := F.setLoc (.conn c) l }
  | callGo {F : Fine} {i : Nat} {a : Act} {f : a.Resp → Prog Unit} {m : Mem} {l : Locals} (hp : F.sys.api i = .call (.act a f))
      (h : micro (.api i) a F.mem (F.loc (.api i)) = .go m l) : Step F (.mem (.api i)) { F with mem := m, loc := F.setLoc (.api i) l }
  | callDone {F : Fine} {i : Nat} {a : Act} {f : a.Resp → Prog Unit} {r r' : a.Resp} {m : Mem} {l : Locals} (hp : F.sys.api i = .call (.act a f))
      (h : micro (.api i) a F.mem (F.loc (.api i)) = .done r m l) (hr : a.upTo r r') :
      Step F (.sys (.call i a r')) { sys := F.sys.setApi i (.call (f r')), mem := m, loc := F.setLoc (.api i) l }
  | unlock {F : Fine} {t : Tid} {k : Lock} (h : (F.loc t).pc = .leave k) :
      Step F (.mem t) { F with mem := F.mem.setLock k none, loc := F.setLoc t ((F.loc t).goto .out) }

inductive Fine.Run : Fine → List FEv → Fine → Prop where
  | nil (F : Fine) : Run F [] F
  | cons {F F1 F2 : Fine} {e : FEv} {es : List FEv} (h : Step F e F1) (hs : Run F1 es F2) : Run F (e :: es) F2

/-! ### Invariants -/

/-- Maps have no duplicate keys, pointers lead to allocated objects, and no object is reached in two ways. -/
structure Mem.WF (m : Mem) : Prop where
  tNodup : (GoMap.keys m.topics).Nodup
  tInj : ∀ t t' a, GoMap.get m.topics t = some a → GoMap.get m.topics t' = some a → t = t'
  tLt : ∀ t a, GoMap.get m.topics t = some a → a < m.nT
  fresh : ∀ a, m.nT ≤ a → m.parts a = []
  pNodup : ∀ a, (GoMap.keys (m.parts a)).Nodup
  pInj : ∀ a a' p p' x, GoMap.get (m.parts a) p = some x → GoMap.get (m.parts a') p' = some x → a = a' ∧ p = p'
  pLt : ∀ a p x, GoMap.get (m.parts a) p = some x → x < m.nP

/-- What a goroutine has found out is true. -/
def Seen.ok (m : Mem) : Lock → Seen → Prop
  | .store, .noTopic t => GoMap.get m.topics t = none
  | .topic a, .noPart p => GoMap.get (m.parts a) p = none
  | .part x, .recs rs => (m.data x).records = rs
  | .part x, .low g o => ((GoMap.get (m.data x).committed g).getD 0).toInt < o.toInt
  | .part x, .noGroup g => GoMap.get (m.data x).committed g = none
  | .part x, .below i => i < ((m.data x).records.length : Int)
  | _, _ => False

/-- The mutex belongs to an object that is allocated. -/
def Lock.allocated (m : Mem) : Lock → Prop
  | .store => True
  | .topic a => a < m.nT
  | .part x => x < m.nP

/-- What holds of a goroutine: its pointers are those in the maps, it holds the mutex it has locked, and what it has found out is true. -/
structure Locals.WF (m : Mem) (me : Tid) (l : Locals) : Prop where
  kt : ∀ t a, l.kt t = some a → GoMap.get m.topics t = some a
  kp : ∀ t p x, l.kp t p = some x → ∃ a, GoMap.get m.topics t = some a ∧ GoMap.get (m.parts a) p = some x
  held : ∀ k s, l.pc = .inside k s → m.locks k = some me ∧ k.allocated m
  leave : ∀ k, l.pc = .leave k → m.locks k = some me ∧ k.allocated m
  seen : ∀ k s, l.pc = .inside k (some s) → s.ok m k

structure Fine.WF (F : Fine) : Prop where
  mem : F.mem.WF
  loc : ∀ t, (F.loc t).WF F.mem t
  /-- a mutex that is held is held by a goroutine inside a function -/
  owner : ∀ k t, F.mem.locks k = some t → (F.loc t).pc = .leave k ∨ ∃ s, (F.loc t).pc = .inside k s

/-! ### The store by names -/

theorem map_set {K V : Type} [DecidableEq K] {m : List (K × Nat)} {k : K} {a : Nat} (f g : Nat → V) (hg : GoMap.get m k = some a)
    (hi : ∀ e ∈ m, e.2 = a → e.1 = k) (hn : (GoMap.keys m).Nodup) (h : ∀ b, b ≠ a → g b = f b) :
    (m.map fun e => (e.1, g e.2)) = GoMap.set (m.map fun e => (e.1, f e.2)) k (g a) := by
  induction m with
  | nil => cases hg
  | cons e m ih =>
    obtain ⟨c, b⟩ := e
    simp only [GoMap.keys, List.map_cons, List.nodup_cons] at hn
    simp only [GoMap.get] at hg
    simp only [List.map_cons, GoMap.set]
    by_cases hc : c = k
    · subst hc
      rw [if_pos rfl] at hg ⊢
      cases hg
      congr 1
      apply List.map_congr_left
      intro e he
      rw [h e.2]
      intro e2
      exact hn.1 (hi e (List.mem_cons_of_mem _ he) e2 ▸ List.mem_map_of_mem he)
    · rw [if_neg hc] at hg ⊢
      rw [h b fun e2 => hc (hi (c, b) (List.mem_cons_self ..) e2), ih hg (fun e he => hi e (List.mem_cons_of_mem _ he)) hn.2]

namespace Mem

theorem get_load (m : Mem) (t : Bytes) : GoMap.get m.load t = (GoMap.get m.topics t).map fun a => (m.parts a).map fun d => (d.1, m.data d.2) :=
  get_map (fun a => (m.parts a).map fun d : I32 × Nat => (d.1, m.data d.2)) m.topics t

theorem part?_load {m : Mem} {t : Bytes} {a : Nat} (h : GoMap.get m.topics t = some a) (p : I32) :
    m.load.part? t p = (GoMap.get (m.parts a) p).map m.data := by
  unfold Store.part?
  rw [get_load, h]
  exact get_map m.data (m.parts a) p

theorem keys_load (m : Mem) : GoMap.keys m.load = GoMap.keys m.topics := by
  simp [GoMap.keys, load]

theorem WF.tInj' {m : Mem} (hm : m.WF) {t : Bytes} {a : Nat} (h : GoMap.get m.topics t = some a) : ∀ e ∈ m.topics, e.2 = a → e.1 = t := by
  rintro ⟨u, b⟩ he rfl
  exact hm.tInj _ _ _ (GoMap.mem_get hm.tNodup he) h

theorem WF.pInj' {m : Mem} (hm : m.WF) {a : Nat} {p : I32} {x : Nat} (h : GoMap.get (m.parts a) p = some x) : ∀ e ∈ m.parts a, e.2 = x → e.1 = p := by
  rintro ⟨q, y⟩ he rfl
  exact (hm.pInj _ _ _ _ _ (GoMap.mem_get (hm.pNodup a) he) h).2

/-- Assignment through a partition pointer is assignment to the partition with that name. -/
theorem load_setData {m : Mem} (hm : m.WF) {t : Bytes} {p : I32} {a x : Nat} (ht : GoMap.get m.topics t = some a)
    (hp : GoMap.get (m.parts a) p = some x) (f : Partition → Partition) : (m.setData x f).load = m.load.updPart t p f := by
  unfold Store.updPart
  have h1 := map_set m.data (m.setData x f).data hp (hm.pInj' hp) (hm.pNodup a) (by intro b hb; simp [setData, hb])
  have h2 := map_set (fun a => (m.parts a).map fun d => (d.1, m.data d.2)) (fun a => (m.parts a).map fun d => (d.1, (m.setData x f).data d.2)) ht
    (hm.tInj' ht) hm.tNodup (by
      intro b hb
      apply List.map_congr_left
      rintro ⟨q, y⟩ he
      have : y ≠ x := fun e => hb (hm.pInj b a q p x (e ▸ GoMap.mem_get (hm.pNodup b) he) hp).1
      simp [setData, this])
  rw [get_load, ht]
  simp only [Option.map_some]
  rw [get_map m.data, hp]
  simp only [Option.map_some]
  refine h2.trans ?_
  have h3 : (m.setData x f).data x = f (m.data x) := if_pos rfl
  rw [h1, h3]
  rfl

theorem load_newTopic {m : Mem} (hm : m.WF) {t : Bytes} (h : GoMap.get m.topics t = none) :
    ({ m with topics := GoMap.set m.topics t m.nT, nT := m.nT + 1 } : Mem).load = m.load.createTopic t := by
  unfold Store.createTopic
  rw [get_load, h, Option.map_none]
  have h1 : GoMap.get m.load t = none := by rw [get_load, h]; rfl
  show _ = GoMap.set m.load t []
  rw [GoMap.set_new _ h1]
  unfold load
  simp only
  rw [GoMap.set_new _ h, List.map_append]
  simp [hm.fresh m.nT (Nat.le_refl _)]

theorem load_newPart {m : Mem} (hm : m.WF) {t : Bytes} {a : Nat} {p : I32} (ht : GoMap.get m.topics t = some a) (h : GoMap.get (m.parts a) p = none) :
    ({ m with parts := fun b => if b = a then GoMap.set (m.parts a) p m.nP else m.parts b
              data := fun y => if y = m.nP then Store.newPartition p else m.data y
              nP := m.nP + 1 } : Mem).load = m.load.createPartition t p := by
  unfold Store.createPartition
  have hold : ∀ b, (m.parts b).map (fun d => (d.1, if d.2 = m.nP then Store.newPartition p else m.data d.2)) =
      (m.parts b).map fun d => (d.1, m.data d.2) := by
    intro b
    apply List.map_congr_left
    rintro ⟨q, y⟩ he
    have := hm.pLt b q y (GoMap.mem_get (hm.pNodup b) he)
    have : y ≠ m.nP := by omega
    simp [this]
  have h2 := map_set (fun a => (m.parts a).map fun d => (d.1, m.data d.2))
    (fun b => (if b = a then GoMap.set (m.parts a) p m.nP else m.parts b).map fun d => (d.1, if d.2 = m.nP then Store.newPartition p else m.data d.2)) ht
    (hm.tInj' ht) hm.tNodup (by
      intro b hb
      simp only [if_neg hb]
      exact hold b)
  rw [get_load, ht]
  simp only [Option.map_some]
  rw [get_map m.data, h]
  simp only [Option.map_none]
  refine h2.trans ?_
  have h3 : GoMap.get ((m.parts a).map fun d => (d.1, m.data d.2)) p = none := by rw [get_map m.data, h]; rfl
  rw [GoMap.set_new (m := (m.parts a).map fun d => (d.1, m.data d.2)) _ h3]
  simp only [if_pos]
  rw [GoMap.set_new _ h, List.map_append, hold a]
  simp [load]

end Mem

/-! ### One access -/

/-- What an access of `me` leaves alone: pointers, mutexes held by others, and what is guarded by them. -/
structure Mem.Ext (me : Tid) (m m' : Mem) : Prop where
  topics : ∀ t a, GoMap.get m.topics t = some a → GoMap.get m'.topics t = some a
  parts : ∀ a p x, GoMap.get (m.parts a) p = some x → GoMap.get (m'.parts a) p = some x
  nT : m.nT ≤ m'.nT
  nP : m.nP ≤ m'.nP
  locks : ∀ k u, u ≠ me → (m'.locks k = some u ↔ m.locks k = some u)
  seen : ∀ k s u, u ≠ me → m.locks k = some u → k.allocated m → Seen.ok m k s → Seen.ok m' k s

/-- A mutex held by `me` is one it has locked. -/
def Locals.Owns (m : Mem) (me : Tid) (l : Locals) : Prop := ∀ k, m.locks k = some me → l.pc = .leave k ∨ ∃ s, l.pc = .inside k s

structure Keeps (me : Tid) (m m' : Mem) (l' : Locals) : Prop where
  mem : m'.WF
  loc : l'.WF m' me
  ext : m.Ext me m'
  owns : l'.Owns m' me

/-- An access that settles the result is a step of the store addressed by names; another one does not change it. -/
def MOut.Good (me : Tid) (a : Act) (m : Mem) : MOut a.Resp → Prop
  | .blocked => True
  | .go m' l' => m'.load = m.load ∧ Keeps me m m' l'
  | .done r m' l' => (∀ r', a.upTo r r' → ∀ c d, a.step ⟨m.load, c, d⟩ r' ⟨m'.load, c, d⟩) ∧ Keeps me m m' l'

theorem Mem.Ext.refl (me : Tid) (m : Mem) : m.Ext me m :=
  ⟨fun _ _ h => h, fun _ _ _ h => h, Nat.le_refl _, Nat.le_refl _, fun _ _ _ => Iff.rfl, fun _ _ _ _ _ _ h => h⟩

theorem Lock.allocated_mono {me : Tid} {m m' : Mem} (h : m.Ext me m') {k : Lock} (hk : k.allocated m) : k.allocated m' := by
  cases k with
  | store => trivial
  | topic a => exact Nat.lt_of_lt_of_le hk h.nT
  | part x => exact Nat.lt_of_lt_of_le hk h.nP

/-- Nothing changes for another goroutine. -/
theorem Locals.WF.other {me u : Tid} {m m' : Mem} {l : Locals} (h : l.WF m u) (hx : m.Ext me m') (hu : u ≠ me) : l.WF m' u where
  kt t a ha := hx.topics t a (h.kt t a ha)
  kp t p x hp := by
    obtain ⟨a, h1, h2⟩ := h.kp t p x hp
    exact ⟨a, hx.topics _ _ h1, hx.parts _ _ _ h2⟩
  held k s hk := ⟨(hx.locks k u hu).2 (h.held k s hk).1, Lock.allocated_mono hx (h.held k s hk).2⟩
  leave k hk := ⟨(hx.locks k u hu).2 (h.leave k hk).1, Lock.allocated_mono hx (h.leave k hk).2⟩
  seen k s hk := hx.seen k s u hu (h.held k _ hk).1 (h.held k _ hk).2 (h.seen k s hk)

/-- Inside: going on, nothing written. -/
theorem Locals.WF.stay {me : Tid} {m : Mem} {l : Locals} (h : l.WF m me) {k : Lock} {s s' : Option Seen} (hp : l.pc = .inside k s)
    (hs : ∀ x, s' = some x → x.ok m k) : (l.goto (.inside k s')).WF m me where
  kt := h.kt
  kp := h.kp
  held k' s'' e := by cases e; exact h.held k s hp
  leave k' e := by cases e
  seen k' s'' e := by cases e; exact hs _ rfl

theorem Locals.WF.finish {me : Tid} {m : Mem} {l : Locals} (h : l.WF m me) {k : Lock} {s : Option Seen} (hp : l.pc = .inside k s) :
    (l.goto (.leave k)).WF m me where
  kt := h.kt
  kp := h.kp
  held k' s'' e := by cases e
  leave k' e := by cases e; exact h.held k s hp
  seen k' s'' e := by cases e

/-- After an access of its own while it holds the mutex. -/
theorem Locals.WF.own {me : Tid} {m m' : Mem} {l : Locals} (h : l.WF m me) {k : Lock} {s : Option Seen} (hp : l.pc = .inside k s) (hx : m.Ext me m')
    (hl : m'.locks = m.locks) : (l.goto (.leave k)).WF m' me where
  kt t a ha := hx.topics t a (h.kt t a ha)
  kp t p x hp := by
    obtain ⟨a, h1, h2⟩ := h.kp t p x hp
    exact ⟨a, hx.topics _ _ h1, hx.parts _ _ _ h2⟩
  held k' s'' e := by cases e
  leave k' e := by cases e; exact ⟨hl ▸ (h.held k s hp).1, Lock.allocated_mono hx (h.held k s hp).2⟩
  seen k' s'' e := by cases e

theorem Locals.WF.setT {me : Tid} {m : Mem} {l : Locals} (h : l.WF m me) {t : Bytes} {o : Option Nat} (ho : ∀ a, o = some a → GoMap.get m.topics t = some a) :
    (l.setT t o).WF m me where
  kt u a ha := by
    simp only [Locals.setT] at ha
    split at ha
    · next e => subst e; exact ho a ha
    · exact h.kt u a ha
  kp := h.kp
  held := h.held
  leave := h.leave
  seen := h.seen

theorem Locals.WF.setP {me : Tid} {m : Mem} {l : Locals} (h : l.WF m me) {t : Bytes} {p : I32} {o : Option Nat}
    (ho : ∀ x, o = some x → ∃ a, GoMap.get m.topics t = some a ∧ GoMap.get (m.parts a) p = some x) : (l.setP t p o).WF m me where
  kt := h.kt
  kp u q x hx := by
    simp only [Locals.setP] at hx
    split at hx
    · next e => obtain ⟨rfl, rfl⟩ := e; exact ho x hx
    · exact h.kp u q x hx
  held := h.held
  leave := h.leave
  seen := h.seen

theorem Locals.Owns.stay {me : Tid} {m m' : Mem} {l : Locals} (h : l.Owns m me) {k : Lock} {s : Option Seen} (hp : l.pc = .inside k s)
    (hl : m'.locks = m.locks) {l' : Locals} (hl' : l'.pc = .leave k ∨ ∃ s, l'.pc = .inside k s) : l'.Owns m' me := by
  intro k' hk'
  rw [hl] at hk'
  rcases h k' hk' with h | ⟨s', h⟩
  · rw [hp] at h; cases h
  · rw [hp] at h; cases h; exact hl'

/-- Writing to a partition object while holding its mutex. -/
theorem Mem.Ext.setData {me : Tid} {m : Mem} {x : Nat} (hl : m.locks (.part x) = some me) (f : Partition → Partition) : m.Ext me (m.setData x f) where
  topics _ _ h := h
  parts _ _ _ h := h
  nT := Nat.le_refl _
  nP := Nat.le_refl _
  locks _ _ _ := Iff.rfl
  seen k s u hu hk _ hs := by
    have : ∀ y, k = .part y → (m.setData x f).data y = m.data y := by
      rintro y rfl
      have : y ≠ x := by rintro rfl; rw [hl] at hk; cases hk; exact hu rfl
      simp [Mem.setData, this]
    cases k with
    | store => cases s <;> exact hs
    | topic a => cases s <;> exact hs
    | part y => cases s <;> simp only [Seen.ok, this y rfl] at hs ⊢ <;> exact hs

theorem Mem.WF.setData {m : Mem} (h : m.WF) (x : Nat) (f : Partition → Partition) : (m.setData x f).WF :=
  ⟨h.tNodup, h.tInj, h.tLt, h.fresh, h.pNodup, h.pInj, h.pLt⟩

theorem keeps_setData {me : Tid} {m : Mem} {l : Locals} (hm : m.WF) (hl : l.WF m me) (ho : l.Owns m me) {x : Nat} {s : Option Seen}
    (hp : l.pc = .inside (.part x) s) (f : Partition → Partition) : Keeps me m (m.setData x f) (l.goto (.leave (.part x))) :=
  have hx := Mem.Ext.setData (hl.held _ _ hp).1 f
  ⟨hm.setData x f, hl.own hp hx rfl, hx, ho.stay hp rfl (.inl rfl)⟩

/-- Leaving without having written. -/
theorem keeps_leave {me : Tid} {m : Mem} {l l' : Locals} (hm : m.WF) (ho : l.Owns m me) {k : Lock} {s : Option Seen}
    (hp : l.pc = .inside k s) (hl' : l'.WF m me) (hp' : l'.pc = .inside k s) : Keeps me m m (l'.goto (.leave k)) :=
  ⟨hm, hl'.finish hp', .refl me m, ho.stay hp rfl (.inl rfl)⟩

theorem keeps_stay {me : Tid} {m : Mem} {l : Locals} (hm : m.WF) (hl : l.WF m me) (ho : l.Owns m me) {k : Lock} {s : Option Seen}
    (hp : l.pc = .inside k s) {x : Seen} (hx : x.ok m k) : Keeps me m m (l.goto (.inside k (some x))) :=
  ⟨hm, hl.stay hp (fun _ e => by cases e; exact hx), .refl me m, ho.stay hp rfl (.inr ⟨_, rfl⟩)⟩

theorem keeps_newTopic {me : Tid} {m : Mem} {l : Locals} (hm : m.WF) (hl : l.WF m me) (ho : l.Owns m me) {s : Option Seen} {t : Bytes}
    (hp : l.pc = .inside .store s) (ht : GoMap.get m.topics t = none) :
    Keeps me m { m with topics := GoMap.set m.topics t m.nT, nT := m.nT + 1 } ((l.setT t (some m.nT)).goto (.leave .store)) := by
  have get : ∀ u a, GoMap.get (GoMap.set m.topics t m.nT) u = some a ↔ (u = t ∧ a = m.nT) ∨ GoMap.get m.topics u = some a := by
    intro u a
    rw [GoMap.get_set]
    by_cases e : t = u
    · subst e; simp [ht, eq_comm]
    · simp [e, Ne.symm e]
  have hx : m.Ext me { m with topics := GoMap.set m.topics t m.nT, nT := m.nT + 1 } := by
    refine ⟨fun u a h => (get u a).2 (.inr h), fun _ _ _ h => h, Nat.le_succ _, Nat.le_refl _, fun _ _ _ => Iff.rfl, fun k s u hu hk _ hs => ?_⟩
    cases k with
    | store => rw [(hl.held _ _ hp).1] at hk; cases hk; exact absurd rfl hu
    | topic a => cases s <;> exact hs
    | part x => cases s <;> exact hs
  refine ⟨?_, ?_, hx, ho.stay hp rfl (.inl rfl)⟩
  · refine ⟨GoMap.nodup_set hm.tNodup _ _, fun u u' a h h' => ?_, fun u a h => ?_, fun a ha => hm.fresh a (by simp only at ha; omega), hm.pNodup, hm.pInj, hm.pLt⟩
    · rcases (get u a).1 h with ⟨rfl, rfl⟩ | h1 <;> rcases (get u' _).1 h' with ⟨rfl, h3⟩ | h2
      · rfl
      · have := hm.tLt _ _ h2; omega
      · subst h3; have := hm.tLt _ _ h1; omega
      · exact hm.tInj _ _ _ h1 h2
    · rcases (get u a).1 h with ⟨rfl, rfl⟩ | h1
      · exact Nat.lt_succ_self _
      · exact Nat.lt_succ_of_lt (hm.tLt _ _ h1)
  · exact (hl.own hp hx rfl).setT fun a e => by cases e; exact (get t _).2 (.inl ⟨rfl, rfl⟩)

theorem keeps_newPart {me : Tid} {m : Mem} {l : Locals} (hm : m.WF) (hl : l.WF m me) (ho : l.Owns m me) {s : Option Seen} {t : Bytes} {p : I32} {a : Nat}
    (ha : GoMap.get m.topics t = some a) (hp : l.pc = .inside (.topic a) s) (hn : GoMap.get (m.parts a) p = none) :
    Keeps me m { m with parts := fun b => if b = a then GoMap.set (m.parts a) p m.nP else m.parts b
                        data := fun y => if y = m.nP then Store.newPartition p else m.data y
                        nP := m.nP + 1 } ((l.setP t p (some m.nP)).goto (.leave (.topic a))) := by
  have get : ∀ b q x, GoMap.get (if b = a then GoMap.set (m.parts a) p m.nP else m.parts b) q = some x ↔
      (b = a ∧ q = p ∧ x = m.nP) ∨ GoMap.get (m.parts b) q = some x := by
    intro b q x
    by_cases e : b = a
    · subst e
      rw [if_pos rfl, GoMap.get_set]
      by_cases e : p = q
      · subst e; simp [hn, eq_comm]
      · simp [e, Ne.symm e]
    · simp [e]
  have hx : m.Ext me { m with parts := fun b => if b = a then GoMap.set (m.parts a) p m.nP else m.parts b
                              data := fun y => if y = m.nP then Store.newPartition p else m.data y
                              nP := m.nP + 1 } := by
    refine ⟨fun _ _ h => h, fun b q x h => (get b q x).2 (.inr h), Nat.le_refl _, Nat.le_succ _, fun _ _ _ => Iff.rfl, fun k s u hu hk hal hs => ?_⟩
    cases k with
    | store => cases s <;> exact hs
    | topic b =>
      have : b ≠ a := by rintro rfl; rw [(hl.held _ _ hp).1] at hk; cases hk; exact hu rfl
      cases s <;> simp only [Seen.ok, if_neg this] at hs ⊢ <;> exact hs
    | part x =>
      have : x ≠ m.nP := Nat.ne_of_lt hal
      cases s <;> simp only [Seen.ok, if_neg this] at hs ⊢ <;> exact hs
  refine ⟨?_, ?_, hx, ho.stay hp rfl (.inl rfl)⟩
  · refine ⟨hm.tNodup, hm.tInj, hm.tLt, fun b hb => ?_, fun b => ?_, fun b b' q q' x h h' => ?_, fun b q x h => ?_⟩
    · have := hm.tLt _ _ ha
      have : b ≠ a := by simp only at hb; omega
      simp only [if_neg this]
      exact hm.fresh b hb
    · simp only
      split
      · exact GoMap.nodup_set (hm.pNodup a) _ _
      · exact hm.pNodup b
    · rcases (get b q x).1 h with ⟨rfl, rfl, rfl⟩ | h1 <;> rcases (get b' q' _).1 h' with ⟨rfl, rfl, h3⟩ | h2
      · exact ⟨rfl, rfl⟩
      · have := hm.pLt _ _ _ h2; omega
      · subst h3; have := hm.pLt _ _ _ h1; omega
      · exact hm.pInj _ _ _ _ _ h1 h2
    · rcases (get b q x).1 h with ⟨rfl, rfl, rfl⟩ | h1
      · exact Nat.lt_succ_self _
      · exact Nat.lt_succ_of_lt (hm.pLt _ _ _ h1)
  · exact (hl.own hp hx rfl).setP fun x e => by cases e; exact ⟨a, ha, (get a p _).2 (.inl ⟨rfl, rfl, rfl⟩)⟩

theorem isSome_load {m : Mem} {t : Bytes} {a : Nat} (h : GoMap.get m.topics t = some a) : (GoMap.get m.load t).isSome := by
  rw [Mem.get_load, h]; rfl

theorem updPart_congr_at {ds : Store} {t : Bytes} {p : I32} {kp : Partition} {f g : Partition → Partition} (h : ds.part? t p = some kp) (hf : f kp = g kp) :
    ds.updPart t p f = ds.updPart t p g := by
  unfold Store.part? at h
  obtain ⟨kt, h1, h2⟩ := Option.bind_eq_some_iff.1 h
  simp [Store.updPart, h1, h2, hf]

theorem updPart_same {ds : Store} {t : Bytes} {p : I32} {kp : Partition} {f : Partition → Partition} (h : ds.part? t p = some kp) (hf : f kp = kp) :
    ds.updPart t p f = ds := by
  unfold Store.part? at h
  obtain ⟨kt, h1, h2⟩ := Option.bind_eq_some_iff.1 h
  simp only [Store.updPart, h1, h2, hf]
  rw [GoMap.set_get_self h2, GoMap.set_get_self h1]

/-- The accesses between `Lock` and `Unlock`. -/
theorem critical_good {me : Tid} {a : Act} {k : Lock} {s : Option Seen} {m : Mem} {l : Locals} (hm : m.WF) (hl : l.WF m me) (ho : l.Owns m me)
    (hp : l.pc = .inside k s) (hk : a.lock l = some k) : (critical a k s m l).Good me a m := by
  have hs := hl.seen
  unfold critical
  split
  · -- createTopic
    cases hk
    split
    · next a ha =>
      refine ⟨?_, keeps_leave hm ho hp (hl.setT fun b e => by cases e; exact ha) hp⟩
      rintro r' rfl c d
      show _ = World.withDs _ _
      simp only [World.withDs, Store.createTopic]
      rw [Mem.get_load, ha]; rfl
    · next ha => exact ⟨rfl, keeps_stay hm hl ho hp ha⟩
  · cases hk
    split
    · next e =>
      subst e
      have ht : GoMap.get m.topics _ = none := hs _ _ hp
      refine ⟨?_, keeps_newTopic hm hl ho hp ht⟩
      rintro r' rfl c d
      show _ = World.withDs _ _
      rw [Mem.load_newTopic hm ht]; rfl
    · trivial
  · -- getTopic
    cases hk
    refine ⟨?_, keeps_leave hm ho hp (hl.setT fun b e => e) hp⟩
    rintro r' rfl c d
    refine ⟨rfl, ?_⟩
    simp only [Store.getTopic]
    rw [Mem.get_load]
    cases GoMap.get m.topics _ <;> rfl
  · -- createPartition
    obtain ⟨a', ha, e⟩ := Option.map_eq_some_iff.1 hk
    cases e
    have ht := hl.kt _ _ ha
    split
    · next x hx =>
      refine ⟨?_, keeps_leave hm ho hp (hl.setP fun b e => by cases e; exact ⟨_, ht, hx⟩) hp⟩
      rintro r' rfl c d
      refine ⟨isSome_load ht, ?_⟩
      simp only [World.withDs, Store.createPartition]
      rw [Mem.get_load, ht]
      simp only [Option.map_some]
      rw [get_map m.data, hx]
      rfl
    · next hx => exact ⟨rfl, keeps_stay hm hl ho hp hx⟩
  · obtain ⟨a', ha, e⟩ := Option.map_eq_some_iff.1 hk
    cases e
    have ht := hl.kt _ _ ha
    split
    · next e =>
      subst e
      have hn : GoMap.get (m.parts _) _ = none := hs _ _ hp
      refine ⟨?_, keeps_newPart hm hl ho ht hp hn⟩
      rintro r' rfl c d
      refine ⟨isSome_load ht, ?_⟩
      rw [Mem.load_newPart hm ht hn]; rfl
    · trivial
  · -- getPartition
    obtain ⟨a', ha, e⟩ := Option.map_eq_some_iff.1 hk
    cases e
    have ht := hl.kt _ _ ha
    refine ⟨?_, keeps_leave hm ho hp (hl.setP fun x e => ⟨_, ht, e⟩) hp⟩
    rintro r' rfl c d
    refine ⟨isSome_load ht, rfl, ?_⟩
    simp only [Store.getPartition]
    rw [Mem.part?_load ht]
    cases GoMap.get (m.parts _) _ <;> rfl
  · -- postRecord
    obtain ⟨x', hx, e⟩ := Option.map_eq_some_iff.1 hk
    cases e
    obtain ⟨a', ht, hpx⟩ := hl.kp _ _ _ hx
    have hpart := Mem.part?_load ht _ |>.trans (congrArg (Option.map m.data) hpx)
    have hsome := congrArg Option.isSome hpart
    exact ⟨rfl, keeps_stay hm hl ho hp rfl⟩
  · -- postRecord
    obtain ⟨x', hx, e⟩ := Option.map_eq_some_iff.1 hk
    cases e
    obtain ⟨a', ht, hpx⟩ := hl.kp _ _ _ hx
    have hpart := Mem.part?_load ht _ |>.trans (congrArg (Option.map m.data) hpx)
    have hsome := congrArg Option.isSome hpart
    have hrs : (m.data _).records = _ := hs _ _ hp
    refine ⟨?_, keeps_setData hm hl ho hp _⟩
    rintro r' rfl c d
    refine ⟨hsome, ?_⟩
    rw [Mem.load_setData hm ht hpx, ← hrs]
    exact congrArg (World.mk · c d) (updPart_congr_at hpart rfl)
  · -- offsetCommitV2
    obtain ⟨x', hx, e⟩ := Option.map_eq_some_iff.1 hk
    cases e
    obtain ⟨a', ht, hpx⟩ := hl.kp _ _ _ hx
    have hpart := Mem.part?_load ht _ |>.trans (congrArg (Option.map m.data) hpx)
    have hsome := congrArg Option.isSome hpart
    split
    · next h => exact ⟨rfl, keeps_stay hm hl ho hp h⟩
    · next h =>
      refine ⟨?_, keeps_leave hm ho hp hl hp⟩
      rintro r' rfl c d
      refine ⟨hsome, ?_⟩
      refine congrArg (World.mk · c d) ?_
      exact (updPart_same (f := (Store.commitOffset · _ _)) hpart (if_neg h)).symm
  · -- offsetCommitV2
    obtain ⟨x', hx, e⟩ := Option.map_eq_some_iff.1 hk
    cases e
    obtain ⟨a', ht, hpx⟩ := hl.kp _ _ _ hx
    have hpart := Mem.part?_load ht _ |>.trans (congrArg (Option.map m.data) hpx)
    have hsome := congrArg Option.isSome hpart
    split
    · next e =>
      obtain ⟨rfl, rfl⟩ := e
      have h : _ < _ := hs _ _ hp
      refine ⟨?_, keeps_setData hm hl ho hp _⟩
      rintro r' rfl c d
      refine ⟨hsome, ?_⟩
      rw [Mem.load_setData hm ht hpx]
      exact congrArg (World.mk · c d) (updPart_congr_at hpart (if_pos h).symm)
    · trivial
  · -- groupCommittedOffset
    obtain ⟨x', hx, e⟩ := Option.map_eq_some_iff.1 hk
    cases e
    obtain ⟨a', ht, hpx⟩ := hl.kp _ _ _ hx
    have hpart := Mem.part?_load ht _ |>.trans (congrArg (Option.map m.data) hpx)
    have hsome := congrArg Option.isSome hpart
    split
    · next o h =>
      refine ⟨?_, keeps_leave hm ho hp hl hp⟩
      rintro r' rfl c d
      refine ⟨_, hpart, ?_, ?_⟩
      · simp [Store.groupCommitted, h]
      · refine congrArg (World.mk · c d) ?_
        exact (updPart_same hpart (by simp [Store.touchGroup, h])).symm
    · next h => exact ⟨rfl, keeps_stay hm hl ho hp h⟩
  · -- groupCommittedOffset
    obtain ⟨x', hx, e⟩ := Option.map_eq_some_iff.1 hk
    cases e
    obtain ⟨a', ht, hpx⟩ := hl.kp _ _ _ hx
    have hpart := Mem.part?_load ht _ |>.trans (congrArg (Option.map m.data) hpx)
    have hsome := congrArg Option.isSome hpart
    split
    · next e =>
      subst e
      have h : GoMap.get (m.data _).committed _ = none := hs _ _ hp
      refine ⟨?_, keeps_setData hm hl ho hp _⟩
      rintro r' rfl c d
      refine ⟨_, hpart, ?_, ?_⟩
      · simp [Store.groupCommitted, h]
      · rw [Mem.load_setData hm ht hpx]
        exact congrArg (World.mk · c d) (updPart_congr_at hpart (by simp [Store.touchGroup, h]))
    · trivial
  · -- SetConsumerGroupOffset
    obtain ⟨x', hx, e⟩ := Option.map_eq_some_iff.1 hk
    cases e
    obtain ⟨a', ht, hpx⟩ := hl.kp _ _ _ hx
    have hpart := Mem.part?_load ht _ |>.trans (congrArg (Option.map m.data) hpx)
    have hsome := congrArg Option.isSome hpart
    refine ⟨?_, keeps_setData hm hl ho hp _⟩
    rintro r' rfl c d
    refine ⟨hsome, ?_⟩
    rw [Mem.load_setData hm ht hpx]
    rfl
  · -- fetchV2
    obtain ⟨x', hx, e⟩ := Option.map_eq_some_iff.1 hk
    cases e
    obtain ⟨a', ht, hpx⟩ := hl.kp _ _ _ hx
    have hpart := Mem.part?_load ht _ |>.trans (congrArg (Option.map m.data) hpx)
    have hsome := congrArg Option.isSome hpart
    split
    · next h => exact ⟨rfl, keeps_stay hm hl ho hp h⟩
    · next h =>
      refine ⟨?_, keeps_leave hm ho hp hl hp⟩
      rintro r' rfl c d
      exact ⟨_, hpart, rfl, (if_neg h).symm⟩
  · -- fetchV2
    obtain ⟨x', hx, e⟩ := Option.map_eq_some_iff.1 hk
    cases e
    obtain ⟨a', ht, hpx⟩ := hl.kp _ _ _ hx
    have hpart := Mem.part?_load ht _ |>.trans (congrArg (Option.map m.data) hpx)
    have hsome := congrArg Option.isSome hpart
    split
    · next e =>
      subst e
      have h : _ < _ := hs _ _ hp
      refine ⟨?_, keeps_leave hm ho hp hl hp⟩
      rintro r' rfl c d
      exact ⟨_, hpart, rfl, (if_pos h).symm⟩
    · trivial
  · trivial

theorem unlocked_good {me : Tid} {a : Act} {m : Mem} {l : Locals} (hm : m.WF) (hl : l.WF m me) (ho : l.Owns m me) :
    (unlocked a m l).Good me a m := by
  have same : ∀ {t p x}, l.kp t p = some x → m.load.part? t p = some (m.data x) := by
    intro t p x hx
    obtain ⟨a', ht, hpx⟩ := hl.kp _ _ _ hx
    rw [Mem.part?_load ht, hpx]; rfl
  unfold unlocked
  split
  · split
    · next x hx => exact ⟨fun r' e c d => ⟨_, same hx, e, rfl⟩, hm, hl, .refl me m, ho⟩
    · trivial
  · split
    · next x hx => exact ⟨fun r' e c d => ⟨_, same hx, e, rfl⟩, hm, hl, .refl me m, ho⟩
    · trivial
  · split
    · next x hx => exact ⟨fun r' e c d => ⟨_, same hx, rfl, e⟩, hm, hl, .refl me m, ho⟩
    · trivial
  · refine ⟨fun r' e c d => ⟨rfl, ?_⟩, hm, ⟨fun t a ha => ?_, hl.kp, fun k s h => hl.held k s h, fun k h => hl.leave k h, fun k s h => hl.seen k s h⟩,
      .refl me m, ho⟩
    · show List.Perm r' (GoMap.keys m.load)
      rw [Mem.keys_load]; exact e
    · simp only at ha
      cases h : GoMap.get m.topics t with
      | some b => rw [h] at ha; cases ha; exact h ▸ rfl
      | none => rw [h] at ha; exact h ▸ hl.kt t a ha
  · split
    · next a' ha =>
      have ht := hl.kt _ _ ha
      refine ⟨fun r' e c d => ⟨rfl, (m.parts a').map fun d => (d.1, m.data d.2), ?_, ?_⟩, hm, hl, .refl me m, ho⟩
      · exact (Mem.get_load m _).trans (congrArg (Option.map _) ht)
      · rw [List.map_map]; exact e
    · trivial
  · trivial

theorem micro_good {me : Tid} {a : Act} {m : Mem} {l : Locals} (hm : m.WF) (hl : l.WF m me) (ho : l.Owns m me) : (micro me a m l).Good me a m := by
  unfold micro
  split
  · next hp =>
    split
    · next k hk =>
      split
      · next hn =>
        have hal : k.allocated m := by
          cases a <;> simp only [Act.lock] at hk
          case createTopic | getTopic => cases hk; trivial
          case createPartition | getPartition =>
            obtain ⟨a', ha, e⟩ := Option.map_eq_some_iff.1 hk
            cases e
            exact hm.tLt _ _ (hl.kt _ _ ha)
          case post | commit | groupCommitted | setOffset | fetchRecord =>
            obtain ⟨x', hx, e⟩ := Option.map_eq_some_iff.1 hk
            cases e
            obtain ⟨a', ht, hpx⟩ := hl.kp _ _ _ hx
            exact hm.pLt _ _ _ hpx
          all_goals cases hk
        have none_held : ∀ j, m.locks j ≠ some me := by
          intro j hj
          rcases ho j hj with h | ⟨s, h⟩ <;> rw [hp] at h <;> cases h
        refine ⟨rfl, ⟨hm.tNodup, hm.tInj, hm.tLt, hm.fresh, hm.pNodup, hm.pInj, hm.pLt⟩, ⟨hl.kt, hl.kp, ?_, ?_, ?_⟩, ?_, ?_⟩
        · intro j s e
          cases e
          refine ⟨if_pos rfl, ?_⟩
          cases k <;> exact hal
        · intro j e; cases e
        · intro j s e; cases e
        · refine ⟨fun _ _ h => h, fun _ _ _ h => h, Nat.le_refl _, Nat.le_refl _, fun j u hu => ?_, fun j s u _ _ _ hs => ?_⟩
          · simp only [Mem.setLock]
            split
            · next e => subst e; rw [hn]; simp [Ne.symm hu]
            · rfl
          · cases j <;> cases s <;> exact hs
        · intro j hj
          simp only [Mem.setLock] at hj
          split at hj
          · next e => subst e; exact .inr ⟨none, rfl⟩
          · exact absurd hj (none_held j)
      · trivial
    · exact unlocked_good hm hl ho
  · next k s hp =>
    split
    · next hk => exact critical_good hm hl ho hp hk
    · trivial
  · trivial

/-! ### Refinement -/

theorem Fine.new_wf (sv : Server) (clock : Int) : (Fine.new sv clock).WF where
  mem := ⟨List.nodup_nil, nofun, nofun, fun _ _ => rfl, fun _ => List.nodup_nil, nofun, nofun⟩
  loc _ := ⟨nofun, nofun, nofun, nofun, nofun⟩
  owner _ _ h := by cases h

theorem Fine.WF.keeps {F : Fine} (h : F.WF) {t : Tid} {m : Mem} {l : Locals} (hk : Keeps t F.mem m l) (s : Sys) :
    ({ sys := s, mem := m, loc := F.setLoc t l } : Fine).WF where
  mem := hk.mem
  loc u := by
    simp only [Fine.setLoc]
    split
    · next e => subst e; exact hk.loc
    · next e => exact (h.loc u).other hk.ext e
  owner k u hu := by
    simp only [Fine.setLoc]
    split
    · next e => subst e; exact hk.owns k hu
    · next e => exact h.owner k u ((hk.ext.locks k u e).1 hu)

theorem Fine.WF.unlock {F : Fine} (h : F.WF) {t : Tid} {k : Lock} (hp : (F.loc t).pc = .leave k) :
    Keeps t F.mem (F.mem.setLock k none) ((F.loc t).goto .out) := by
  have hl := h.loc t
  have hm := h.mem
  refine ⟨⟨hm.tNodup, hm.tInj, hm.tLt, hm.fresh, hm.pNodup, hm.pInj, hm.pLt⟩, ⟨hl.kt, hl.kp, nofun, nofun, nofun⟩, ?_, ?_⟩
  · refine ⟨fun _ _ h => h, fun _ _ _ h => h, Nat.le_refl _, Nat.le_refl _, fun j u hu => ?_, fun j s u _ _ _ hs => ?_⟩
    · simp only [Mem.setLock]
      split
      · next e => subst e; rw [(hl.leave _ hp).1]; simp [Ne.symm hu]
      · rfl
    · cases j <;> cases s <;> exact hs
  · intro j hj
    simp only [Mem.setLock] at hj
    split at hj
    · cases hj
    · next e =>
      rcases h.owner j t hj with h1 | ⟨s, h1⟩
      · rw [hp] at h1; cases h1; exact absurd rfl e
      · rw [hp] at h1; cases h1

/-- The state of the mock that a state with pointers and mutexes stands for. -/
def Fine.load (F : Fine) : Sys := { F.sys with ds := F.mem.load }

/-- The steps of the mock among the events. -/
def FEv.sys? : FEv → Option SEv
  | .sys e => some e
  | .mem _ => none

/-- The same with another store. -/
def Sys.withDs (s : Sys) (d : Store) : Sys := { s with ds := d }

def Out.withDs (d : Store) : Out → Out
  | .ok s => .ok (s.withDs d)
  | o => o

theorem lockMu_ds (s : Sys) (d : Store) (h : Holder) (f : Sys → Sys) (hf : ∀ s : Sys, f (s.withDs d) = (f s).withDs d) :
    (s.withDs d).lockMu h f = (s.lockMu h f).withDs d := by
  unfold Sys.lockMu
  by_cases hm : s.mu = none
  · rw [if_pos hm, if_pos (show (s.withDs d).mu = none from hm)]
    exact congrArg Out.ok (hf { s with mu := some h })
  · rw [if_neg hm, if_neg (show ¬ (s.withDs d).mu = none from hm)]; rfl

theorem waitStep_ds (s : Sys) (d : Store) (i n : Nat) (k : WaitPc) (at' : WaitPc → ApiPc) (after : ApiPc) :
    (s.withDs d).waitStep i n k at' after = (s.waitStep i n k at' after).withDs d := by
  cases k <;> rfl

theorem wgDone_ds (s : Sys) (d : Store) : (s.withDs d).wgDone = s.wgDone.withDs d := by
  unfold Sys.wgDone
  show (match s.wg with | 0 => _ | 1 => _ | n + 2 => _) = _
  rcases s.wg with _ | _ | n <;> rfl

theorem initDone_ds (s : Sys) (d : Store) : (s.withDs d).initDone = s.initDone.withDs d := by
  unfold Sys.initDone
  show (match s.init with | 0 => _ | 1 => _ | n + 2 => _) = _
  rcases s.init with _ | _ | n <;> rfl

theorem activeDone_ds (s : Sys) (d : Store) : (s.withDs d).activeDone = s.activeDone.withDs d := by
  unfold Sys.activeDone
  show (match s.active with | 0 => _ | n + 1 => _) = _
  rcases s.active with _ | n <;> rfl

theorem startStep_ds (s : Sys) (d : Store) (i : Nat) (r : Bool) (k : StartPc) : (s.withDs d).startStep i r k = (s.startStep i r k).withDs d := by
  cases k
  case lock => exact lockMu_ds s d (.api i) (fun s => s.setApi i (.start .swap r)) fun _ => rfl
  case swap =>
    show (if s.started then _ else _) = (if s.started then _ else _ : Out).withDs d
    cases s.started <;> rfl
  all_goals rfl

theorem stopStep_ds (s : Sys) (d : Store) (i : Nat) (b : StopBy) (k : StopPc) : (s.withDs d).stopStep i b k = (s.stopStep i b k).withDs d := by
  cases k
  case lock => exact lockMu_ds s d (.api i) (fun s => s.setApi i (.stop .close b)) fun _ => rfl
  case init k => exact waitStep_ds s d i s.init k (fun k => .stop (.init k) b) (.stop .lock b)
  case close => obtain ⟨_, _, _, _, l, _, _, _, _, _, _, _, _, _, _, _, _, _, _⟩ := s; cases l <;> rfl
  case cancel => obtain ⟨_, _, _, _, _, _, x, _, _, _, _, _, _, _, _, _, _, _, _⟩ := s; cases x <;> rfl
  all_goals rfl

theorem apiStep_ds (s : Sys) (d : Store) (i : Nat) (c : Call) : (s.withDs d).apiStep i c = (s.apiStep i c).withDs d := by
  unfold Sys.apiStep
  rw [show (s.withDs d).api i = s.api i from rfl]
  cases s.api i with
  | start k r => exact startStep_ds ..
  | stop k b => exact stopStep_ds ..
  | wait k r => exact waitStep_ds ..
  | restartInit k => exact waitStep_ds ..
  | finish => obtain ⟨_, _, _, _, _, _, x, _, _, _, _, _, _, _, _, _, _, _, _⟩ := s; cases x <;> rfl
  | call p => cases p <;> rfl
  | _ => rfl

theorem runStep_ds (s : Sys) (d : Store) (g : Nat) (ok : Bool) : (s.withDs d).runStep g ok = (s.runStep g ok).withDs d := by
  unfold Sys.runStep
  rw [show (s.withDs d).runs[g]? = s.runs[g]? from rfl]
  cases s.runs[g]? with
  | none => rfl
  | some r =>
    dsimp only
    cases hp : r.pc
    case lock => exact lockMu_ds s d _ _ fun _ => rfl
    case listen => cases ok <;> rfl
    case initDone =>
      dsimp only
      rw [initDone_ds]
      cases s.initDone <;> rfl
    case wgDone =>
      dsimp only
      rw [wgDone_ds]
      cases s.wgDone <;> rfl
    case accept =>
      dsimp only
      rw [show (s.withDs d).closes = s.closes from rfl]
      split
      · rfl
      · cases ok <;> rfl
    case waitActive =>
      dsimp only
      rw [show (s.withDs d).active = s.active from rfl]
      split <;> rfl
    all_goals rfl

theorem connStep_ds (s : Sys) (d : Store) (c : Nat) : (s.withDs d).connStep c = (s.connStep c).withDs d := by
  unfold Sys.connStep
  rw [show (s.withDs d).conns[c]? = s.conns[c]? from rfl]
  cases s.conns[c]? with
  | none => rfl
  | some k =>
    dsimp only
    cases k.pc with
    | body p => cases p <;> rfl
    | ended => rfl
    | oc o =>
      cases o
      case lock => exact lockMu_ds s d _ _ fun _ => rfl
      case delete =>
        dsimp only
        rw [show (s.withDs d).runs = s.runs from rfl]
        cases s.runs[k.gen]? <;> rfl
      case active =>
        dsimp only
        rw [activeDone_ds]
        cases s.activeDone <;> rfl
      case wg =>
        dsimp only
        rw [wgDone_ds]
        cases s.wgDone <;> rfl
      case unlock => rfl

theorem next_ds {s s' : Sys} {c : Sys.Choice} (h : s.next c = .ok s') (d : Store) : (s.withDs d).next c = .ok (s'.withDs d) := by
  have : (s.withDs d).next c = (s.next c).withDs d := by
    cases c with
    | api i c => exact apiStep_ds ..
    | run g ok => exact runStep_ds ..
    | conn c => exact connStep_ds ..
    | parentCancel => rfl
  rw [this, h]; rfl

/-- Actions that do not concern the store do not depend on it. -/
theorem Act.step_ds {a : Act} (ha : a.onStore = false) {w w' : World} {r : a.Resp} (h : a.step w r w') (d : Store) :
    a.step (w.withDs d) r (w'.withDs d) ∧ w'.ds = w.ds := by
  cases a with
  | order | orderInt | orderHeaders => obtain ⟨rfl, h⟩ := h; exact ⟨⟨rfl, h⟩, rfl⟩
  | now | isDone => obtain ⟨rfl, rfl⟩ := h; exact ⟨⟨rfl, rfl⟩, rfl⟩
  | sleep n => obtain ⟨c, hc, rfl⟩ := h; exact ⟨⟨c, hc, rfl⟩, rfl⟩
  | tick n => cases h; exact ⟨rfl, rfl⟩
  | cancel => cases h; exact ⟨rfl, rfl⟩
  | recv => obtain ⟨rfl, h⟩ := h; exact ⟨⟨rfl, h⟩, rfl⟩
  | isStopping | write | isConnected | close | reqBegin | reqEnd => cases h; exact ⟨rfl, rfl⟩
  | _ => cases ha

theorem step_ds {s s' : Sys} {e : SEv} (hq : e.quiet = true) (h : Sys.Step s e s') (d : Store) : Sys.Step (s.withDs d) e (s'.withDs d) := by
  cases h with
  | life h => exact .life (next_ds h d)
  | @conn c k a f r w hc hp ha =>
    have hn : a.onStore = false := by simpa [SEv.quiet] using hq
    have := Sys.Step.conn (s := s.withDs d) (c := c) hc hp (Act.step_ds hn ha d).1
    exact this
  | unroll hc hp => exact .unroll (s := s.withDs d) hc hp
  | @call i a f r w hp ha =>
    have hn : a.onStore = false := by simpa [SEv.quiet] using hq
    exact .call (s := s.withDs d) hp (Act.step_ds hn ha d).1
  | tick n => exact .tick (s := s.withDs d) n

/-- What the mock with pointers and mutexes does, step by step. -/
theorem Fine.Step.refines {F F' : Fine} {e : FEv} (hF : F.WF) (h : Fine.Step F e F') :
    F'.WF ∧ match e with
      | .sys e => Sys.Step F.load e F'.load
      | .mem _ => F'.load = F.load := by
  cases h with
  | other hq ho h => exact ⟨⟨hF.mem, hF.loc, hF.owner⟩, step_ds hq h F.mem.load⟩
  | @connGo c k a f m l hc hp h =>
    have g := micro_good (a := a) hF.mem (hF.loc (.conn c)) (fun k => hF.owner k _)
    rw [h] at g
    exact ⟨hF.keeps g.2 _, congrArg F.sys.withDs g.1⟩
  | @connDone c k a f r r' m l hc hp h hr =>
    have g := micro_good (a := a) hF.mem (hF.loc (.conn c)) (fun k => hF.owner k _)
    rw [h] at g
    exact ⟨hF.keeps g.2 _, .conn (s := F.load) hc hp (g.1 r' hr _ _)⟩
  | @callGo i a f m l hp h =>
    have g := micro_good (a := a) hF.mem (hF.loc (.api i)) (fun k => hF.owner k _)
    rw [h] at g
    exact ⟨hF.keeps g.2 _, congrArg F.sys.withDs g.1⟩
  | @callDone i a f r r' m l hp h hr =>
    have g := micro_good (a := a) hF.mem (hF.loc (.api i)) (fun k => hF.owner k _)
    rw [h] at g
    exact ⟨hF.keeps g.2 _, .call (s := F.load) hp (g.1 r' hr _ _)⟩
  | unlock hp => exact ⟨hF.keeps (hF.unlock hp) _, rfl⟩

theorem Fine.Run.refines {F F' : Fine} {tr : List FEv} (h : Fine.Run F tr F') (hF : F.WF) : F'.WF ∧ Sys.Run F.load (tr.filterMap FEv.sys?) F'.load := by
  induction h with
  | nil => exact ⟨hF, .nil _⟩
  | @cons F F1 F2 e es h hs ih =>
    obtain ⟨h1, h2⟩ := h.refines hF
    obtain ⟨h3, h4⟩ := ih h1
    refine ⟨h3, ?_⟩
    cases e with
    | sys e => exact .cons h2 h4
    | mem t => simp only at h2; rw [h2] at h4; exact h4

end KM
