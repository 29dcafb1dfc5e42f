import Verif.Props.Api
/-
The package variables of /repo/api-keys.go:89 and 165-166, which all mocks of a process share: any number of goroutines that call `NewKafkaMock`, and the
connections of mocks that have been created, which look up `apiTable` and `apiVersions` without taking the mutex.
-/
namespace KM

/-- Where a caller of `NewKafkaMock` is (/repo/kafka-mock.go:33-42, which begins with `initializeApis`, /repo/api-keys.go:172-214). -/
inductive NewPc where
  /-- `apiTableLock.Lock()`, line 173 -/
  | lock
  /-- `if apiTable != nil`, line 176 -/
  | test
  /-- `apiTable = …`, lines 180-192 -/
  | table
  /-- `apiVersions = map[kafkaApiKey]versionRange{}` and the beginning of the loop, lines 194-196 -/
  | versions
  /-- the loop of lines 196-213 with the keys that are still to be visited -/
  | fill (rest : List (List Char))
  /-- `apiTableLock.Unlock()`, line 174 -/
  | unlock
  /-- the mock has been returned to the caller -/
  | returned
deriving DecidableEq, Repr

/-- Where a connection that serves a request is. -/
inductive AskPc where
  /-- `apiTable[k]`, /repo/kafka-client.go:207 -/
  | lookup
  /-- the result of the lookup -/
  | found (r : Option Api)
  /-- the loop of /repo/api_versions.go:23-27 and the sorting of line 28 -/
  | range
  /-- the loop of lines 31-39 with the keys found -/
  | entries (keys : List Int)
  /-- the list of line 41 -/
  | listed (l : List ApiKeyEntry)
deriving DecidableEq, Repr

/-- A request being served by mock number `mock`, with the two fields of its header that select the handler. -/
structure AskTask where
  mock : Nat
  key : I16
  version : I16
  pc : AskPc
deriving DecidableEq, Repr

/-- The package variables (`none` for a nil map), the goroutine that holds `apiTableLock`, the calls of `NewKafkaMock`, and the requests being served. -/
structure Proc where
  table : Option (List (List Char × Api)) := none
  versions : Option (List (Int × VersionRange)) := none
  holder : Option Nat := none
  news : List NewPc := []
  asks : List AskTask := []
deriving DecidableEq, Repr

def Proc.setNew (s : Proc) (i : Nat) (pc : NewPc) : Proc := { s with news := s.news.set i pc }

/-- The next step of call `i` of `NewKafkaMock`; `order` is the order in which `range apiTable` visits the keys. Nothing if the call has to wait or has returned. -/
def Proc.newStep (s : Proc) (i : Nat) (order : List (List Char)) : Option Proc :=
  match s.news[i]? with
  | some .lock => if s.holder = none then some (({ s with holder := some i } : Proc).setNew i .test) else none
  | some .test => some (s.setNew i (if s.table = none then .table else .unlock))
  | some .table => some (({ s with table := some apiTable } : Proc).setNew i .versions)
  | some .versions =>
    if order.isPerm (GoMap.keys (s.table.getD [])) then some (({ s with versions := some [] } : Proc).setNew i (.fill order)) else none
  | some (.fill []) => some (s.setNew i .unlock)
  | some (.fill (k :: rest)) => some (({ s with versions := some (initVersion (s.versions.getD []) k) } : Proc).setNew i (.fill rest))
  | some .unlock => some (({ s with holder := none } : Proc).setNew i .returned)
  | some .returned => none
  | none => none

/-- The next step of request `j`; `order` is the order in which `range apiVersions` visits the keys. The loop of lines 23-27, which only reads, is taken as one
step, and so is that of lines 31-39. -/
def Proc.askStep (s : Proc) (j : Nat) (order : List Int) : Option Proc :=
  match s.asks[j]? with
  | none => none
  | some a =>
    let goto (pc : AskPc) : Proc := { s with asks := s.asks.set j { a with pc := pc } }
    match a.pc with
    | .lookup => some (goto (.found (GoMap.get (s.table.getD []) (makeApiKey a.key.toInt a.version.toInt))))
    | .found (some .apiVersions) => some (goto .range)
    | .found _ => none
    | .range =>
      if order.isPerm (GoMap.keys (s.versions.getD [])) then
        let keys := order.filter fun k => match GoMap.get (s.versions.getD []) k with
          | some vr => vr.min.toInt > -2
          | none => false
        some (goto (.entries (keys.mergeSort (· ≤ ·))))
      else none
    | .entries keys => some (goto (.listed (keys.map fun k =>
        let vr := (GoMap.get (s.versions.getD []) k).getD { min := 0, max := 0 }
        if vr.min ≠ -1 then { apiKey := BitVec.ofInt 16 k, minVersion := vr.min, maxVersion := vr.max }
        else { apiKey := BitVec.ofInt 16 k, minVersion := 0, maxVersion := 0 })))
    | .listed _ => none

/-- A step of the process. A connection serves a request of a mock only after the `NewKafkaMock` call of that mock has returned: the goroutine of the connection is
started by that of /repo/kafka-mock.go:109-165, which is started by `Start`, a method of the mock. -/
inductive Proc.Step : Proc → Proc → Prop where
  | call {s : Proc} : Step s { s with news := s.news ++ [.lock] }
  | new {s s' : Proc} {i : Nat} {order : List (List Char)} : s.newStep i order = some s' → Step s s'
  | ask {s : Proc} {i : Nat} {k v : I16} : s.news[i]? = some .returned → Step s { s with asks := s.asks ++ [⟨i, k, v, .lookup⟩] }
  | serve {s s' : Proc} {j : Nat} {order : List Int} : s.askStep j order = some s' → Step s s'

/-- A run of the process from its start: nothing has been initialised, and nobody has called `NewKafkaMock`. -/
inductive Proc.Reach : Proc → Prop where
  | start : Reach {}
  | step {s s' : Proc} : Reach s → Proc.Step s s' → Reach s'

end KM
