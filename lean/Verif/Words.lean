import Verif.Store
/-
`kp.Records` at the level of memory words. A Go slice is three words: the address of an array, the length, the capacity. Appending stores them one after the other, and
the new element; `kp.Records[i]` loads the length (to check `i`), the address, and then the element. Under the mutex of the partition (`postRecord`, Fetch) this is not
observable; ListOffsets reads without it. The main model (`Act.numRecords`, `Act.recordAt`) has one access for each read; here it is seen what that leaves out.
-/
namespace KM.Words

/-- What `append` stores: the new element, and the words of `kp.Records`. -/
inductive Word where
  | elem | ptr | len | cap
deriving DecidableEq

/-- The order in which ListOffsets loads the words for `if len(kp.Records) == 0 {..} else { msg := kp.Records[0]` (/repo/list_offsets.go:65-68), or for
`for i := len(kp.Records) - 1; i >= 0; i-- { msg := kp.Records[i]` (75-76): the length of the condition, the length for the check of the index, and the address. -/
inductive Loads where
  | lenLenPtr | lenPtrLen | ptrLenLen
deriving DecidableEq

/-- What Go leaves open: the order in which the words are stored by `kp.Records = append(kp.Records, record)`, /repo/datastore.go:118, and the order in which ListOffsets
loads them. (Without a mutex, a compiler may exchange loads of different words, and stores to different words.) Each store and each load is of one word, and all goroutines see them in one order (which Go does not promise either; with less, more can
go wrong). -/
structure Order where
  stores : List Word
  each : stores.Perm [.cap, .ptr, .len, .elem]
  loads : Loads

/-- The words of a slice; `ptr` is the number of the array. -/
structure Header where
  ptr : Nat
  len : Nat
  cap : Nat
deriving DecidableEq

/-- What a read of a record has found. -/
inductive Found where
  /-- a record -/
  | record (r : Record)
  /-- the offset is not below the length; nothing is read -/
  | missing
  /-- the index is out of range, which panics -/
  | range
  /-- a nil pointer; to use it panics -/
  | null
  /-- what is in memory behind the end of the array -/
  | wild
deriving DecidableEq

/-- What a goroutine does with the partition. -/
inductive Job where
  /-- `kp.postRecord`, /repo/datastore.go:102-119 -/
  | post (r : Record)
  /-- the locked block of Fetch for one record, /repo/fetch.go:82-86; a negative offset is not considered here (C37) -/
  | fetch (i : Nat)
  /-- `len(kp.Records)` and then, if `i` is below it, `kp.Records[i]`, /repo/list_offsets.go:65-68 (`i` is 0) and 75-76 (every `i`, from the last on) -/
  | list (i : Nat)
deriving DecidableEq

/-- Where a goroutine is. -/
inductive PC where
  | idle
  /-- at `kp.mu.Lock()`, /repo/datastore.go:103 -/
  | post (r : Record)
  /-- about to load the words of `kp.Records`, /repo/datastore.go:118 -/
  | append (r : Record)
  /-- about to store `todo`: the words of `h`, the element at `i` -/
  | storing (r : Record) (h : Header) (i : Nat) (todo : List Word)
  /-- at `kp.mu.Unlock()` of a post -/
  | posted
  /-- at `kp.lock()`, /repo/fetch.go:82 -/
  | fetch (i : Nat)
  /-- about to compare with `len(kp.Records)`, /repo/fetch.go:83 -/
  | fetchLen (i : Nat)
  /-- about to load the record, /repo/fetch.go:84 -/
  | fetchAt (i : Nat)
  /-- at `kp.unlock()`, /repo/fetch.go:86 -/
  | fetched (i : Nat) (x : Found)
  /-- about to load the address before anything else -/
  | listPtr (i : Nat)
  /-- has loaded the address, no length -/
  | early (i p : Nat)
  /-- about to load `len(kp.Records)`, /repo/list_offsets.go:65,75 -/
  | listLen (i : Nat)
  /-- about to load the first of the two words for `kp.Records[i]`, /repo/list_offsets.go:68,76 -/
  | listAt (i : Nat)
  /-- has loaded the lengths, not the address -/
  | haveLen (i n : Nat)
  /-- has loaded the address and the first length, not the second -/
  | havePtr (i p : Nat)
  /-- has checked the index; about to load the element -/
  | load (i p : Nat)
  /-- has the record of ListOffsets -/
  | listed (i : Nat) (x : Found)
deriving DecidableEq

/-- The partition in memory, and the goroutines. -/
structure State where
  /-- the arrays; an array that is not allocated is empty -/
  block : Nat → List (Option Record)
  /-- the number of the next array -/
  fresh : Nat
  /-- `kp.Records` -/
  hdr : Header
  /-- who has `kp.mu` -/
  mutex : Option Nat
  pc : Nat → PC
  /-- the records that have been posted, in the order in which the mutex was taken (not in memory) -/
  log : List Record

/-- A new partition, /repo/datastore.go:77-81: `[]*kafkaRecord{}` is an array of length 0. -/
def State.new : State := ⟨fun _ => [], 1, ⟨0, 0, 0⟩, none, fun _ => .idle, []⟩

/-- The goroutine is somewhere else. -/
def State.goto (s : State) (t : Nat) (c : PC) : State := { s with pc := fun u => if u = t then c else s.pc u }

/-- Load an element of an array: behind its end is other memory. -/
def State.load (s : State) (p i : Nat) : Found := match (s.block p)[i]? with
  | none => .wild
  | some none => .null
  | some (some r) => .record r

/-- The store of one word. -/
def State.store (s : State) (r : Record) (h : Header) (i : Nat) : Word → State
  | .elem => { s with block := fun b => if b = h.ptr then (s.block b).set i (some r) else s.block b }
  | .ptr => { s with hdr := { s.hdr with ptr := h.ptr } }
  | .len => { s with hdr := { s.hdr with len := h.len } }
  | .cap => { s with hdr := { s.hdr with cap := h.cap } }

/-- A step of a goroutine, or the beginning of a job. `room` is how much longer than necessary a new array is. -/
inductive Move where
  | begin (t : Nat) (j : Job)
  | go (t : Nat) (room : Nat)
deriving DecidableEq

/-- Take the mutex. -/
def State.lock (s : State) (t : Nat) (c : PC) : Option State := match s.mutex with
  | none => some { s.goto t c with mutex := some t }
  | some _ => none

/-- The step of a goroutine. -/
def State.step (K : Order) (s : State) (t room : Nat) : Option State := match s.pc t with
  | .idle => none
  | .post r => s.lock t (.append r)
  | .append r =>
    if s.hdr.len < s.hdr.cap then some { s.goto t (.storing r { s.hdr with len := s.hdr.len + 1 } s.hdr.len K.stores) with log := s.log ++ [r] }
    else
      let c := s.hdr.len + 1 + room
      some { s.goto t (.storing r ⟨s.fresh, s.hdr.len + 1, c⟩ s.hdr.len K.stores) with
        log := s.log ++ [r]
        fresh := s.fresh + 1
        block := fun b => if b = s.fresh then (s.block s.hdr.ptr).take s.hdr.len ++ List.replicate (c - s.hdr.len) none else s.block b }
  | .storing r h i (w :: todo) => some ((s.store r h i w).goto t (.storing r h i todo))
  | .storing _ _ _ [] => some (s.goto t .posted)
  | .posted => some { s.goto t .idle with mutex := none }
  | .fetch i => s.lock t (.fetchLen i)
  | .fetchLen i => some (s.goto t (if i < s.hdr.len then .fetchAt i else .fetched i .missing))
  | .fetchAt i => some (s.goto t (.fetched i (s.load s.hdr.ptr i)))
  | .fetched _ _ => some { s.goto t .idle with mutex := none }
  | .listLen i => some (s.goto t (if i < s.hdr.len then .listAt i else .listed i .missing))
  | .listPtr i => some (s.goto t (.early i s.hdr.ptr))
  | .early i p => some (s.goto t (if i < s.hdr.len then .havePtr i p else .listed i .missing))
  | .listAt i => some (s.goto t (if K.loads = .lenLenPtr then .haveLen i s.hdr.len else .havePtr i s.hdr.ptr))
  | .haveLen i n => some (s.goto t (if i < n then .load i s.hdr.ptr else .listed i .range))
  | .havePtr i p => some (s.goto t (if i < s.hdr.len then .load i p else .listed i .range))
  | .load i p => some (s.goto t (.listed i (s.load p i)))
  | .listed _ _ => some (s.goto t .idle)

/-- Where a job begins. -/
def Job.entry (K : Order) : Job → PC
  | .post r => .post r
  | .fetch i => .fetch i
  | .list i => if K.loads = .ptrLenLen then .listPtr i else .listLen i

/-- A move. -/
def State.next (K : Order) (s : State) : Move → Option State
  | .begin t j => match s.pc t with
    | .idle => some (s.goto t (j.entry K))
    | _ => none
  | .go t room => s.step K t room

/-- The state after these moves. -/
def State.play (K : Order) : List Move → State → Option State
  | [], s => some s
  | m :: ms, s => match s.next K m with
    | none => none
    | some s' => State.play K ms s'

/-- The one thing that makes reads without the mutex safe: the length is stored when the address and the element are there already, and ListOffsets loads it before the
address. -/
def Order.Good (K : Order) : Prop := (∀ done rest, K.stores = done ++ .len :: rest → .ptr ∈ done ∧ .elem ∈ done) ∧ K.loads ≠ .ptrLenLen

end KM.Words
