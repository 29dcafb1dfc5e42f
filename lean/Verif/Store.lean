import Verif.Go.Bytes
import Verif.Go.Map
/-
The data store, /repo/datastore.go. Topics and partitions are reached through pointers in the code;
since map entries are only ever added (never removed or replaced: /repo/datastore.go:54-60, 75-83, and no
`delete` on these maps anywhere), a `*kafkaPartition` is represented by its (topic name, partition number).
-/
namespace KM

/-- /repo/datastore.go:30-41. Headers are a slice of (key, value). Values are captured by copy here; the
aliasing of the caller's slices is modelled in `Verif/Heap.lean`. -/
structure Record where
  attributes : I8
  timestamp : I64
  key : Option Bytes
  value : Option Bytes
  headers : List (Bytes × Option Bytes)
deriving DecidableEq, Repr

/-- /repo/datastore.go:19-28; the fields `Timestamp` and `Offset` are never read or written and are left out. -/
structure Partition where
  index : I32
  errorCode : I16
  records : List Record
  committed : List (Bytes × I64)
  metadata : Option Bytes
deriving DecidableEq, Repr

/-- `kafkaTopic.Partitions`, /repo/datastore.go:14-17. -/
abbrev Topic := List (I32 × Partition)

/-- `kafkaDataStore.Topics`, /repo/datastore.go:9-12. -/
abbrev Store := List (Bytes × Topic)

namespace Store

/-- /repo/datastore.go:44-48 -/
def new : Store := []

/-- /repo/datastore.go:50-62 -/
def createTopic (ds : Store) (name : Bytes) : Store :=
  match GoMap.get ds name with
  | some _ => ds
  | none => GoMap.set ds name []

/-- /repo/datastore.go:64-69: whether the pointer is non-nil. -/
def getTopic (ds : Store) (name : Bytes) : Bool := (GoMap.get ds name).isSome

/-- A fresh partition, /repo/datastore.go:77-81. -/
def newPartition (number : I32) : Partition :=
  { index := number, errorCode := 0, records := [], committed := [], metadata := none }

/-- /repo/datastore.go:71-85, on the topic object `name`. -/
def createPartition (ds : Store) (name : Bytes) (number : I32) : Store :=
  match GoMap.get ds name with
  | none => ds
  | some kt =>
    match GoMap.get kt number with
    | some _ => ds
    | none => GoMap.set ds name (GoMap.set kt number (newPartition number))

/-- The partition object reached through a topic name and a partition number. -/
def part? (ds : Store) (name : Bytes) (number : I32) : Option Partition :=
  (GoMap.get ds name).bind fun kt => GoMap.get kt number

/-- /repo/datastore.go:87-92: whether the pointer is non-nil. -/
def getPartition (ds : Store) (name : Bytes) (number : I32) : Bool := (ds.part? name number).isSome

/-- Assignment through a partition pointer. -/
def updPart (ds : Store) (name : Bytes) (number : I32) (f : Partition → Partition) : Store :=
  match GoMap.get ds name with
  | none => ds
  | some kt =>
    match GoMap.get kt number with
    | none => ds
    | some kp => GoMap.set ds name (GoMap.set kt number (f kp))

/-- /repo/datastore.go:102-119, line 118 -/
def postRecord (kp : Partition) (r : Record) : Partition := { kp with records := kp.records ++ [r] }

/-- The critical section of offsetCommitV2, /repo/offset_commit.go:66-72; a missing map entry reads as 0. -/
def commitOffset (kp : Partition) (group : Bytes) (offset : I64) : Partition :=
  let cur := (GoMap.get kp.committed group).getD 0
  if cur.toInt < offset.toInt then { kp with committed := GoMap.set kp.committed group offset } else kp

/-- /repo/datastore.go:121-130, the state change. -/
def touchGroup (kp : Partition) (group : Bytes) : Partition :=
  match GoMap.get kp.committed group with
  | some _ => kp
  | none => { kp with committed := GoMap.set kp.committed group 0 }

/-- /repo/datastore.go:121-130, the result. -/
def groupCommitted (kp : Partition) (group : Bytes) : I64 := (GoMap.get kp.committed group).getD 0

/-- /repo/kafka-mock.go:194-197 -/
def setOffset (kp : Partition) (group : Bytes) (offset : I64) : Partition :=
  { kp with committed := GoMap.set kp.committed group offset }

/-! ### Lookup lemmas -/

theorem get_createTopic (ds : Store) (n m : Bytes) :
    GoMap.get (ds.createTopic n) m = if n = m then some ((GoMap.get ds m).getD []) else GoMap.get ds m := by
  unfold createTopic
  cases h : GoMap.get ds n with
  | some kt =>
    by_cases e : n = m
    · subst e; simp [h]
    · simp [e]
  | none =>
    simp only [GoMap.get_set]
    by_cases e : n = m
    · subst e; simp [h]
    · simp [e]

theorem part?_createTopic (ds : Store) (n m : Bytes) (p : I32) : (ds.createTopic n).part? m p = ds.part? m p := by
  unfold part?
  rw [get_createTopic]
  by_cases e : n = m
  · subst e
    rw [if_pos rfl]
    cases h : GoMap.get ds n <;> simp
  · rw [if_neg e]

theorem part?_createPartition (ds : Store) (n m : Bytes) (p q : I32) (hn : (GoMap.get ds n).isSome) :
    (ds.createPartition n p).part? m q =
      if n = m ∧ p = q then some ((ds.part? m q).getD (newPartition p)) else ds.part? m q := by
  cases h : GoMap.get ds n with
  | none => rw [h] at hn; cases hn
  | some kt =>
    cases h2 : GoMap.get kt p with
    | some kp =>
      by_cases e : n = m ∧ p = q
      · obtain ⟨rfl, rfl⟩ := e; simp [createPartition, part?, h, h2]
      · rw [if_neg e]; simp [createPartition, h, h2]
    | none =>
      simp only [createPartition, part?, h, h2, GoMap.get_set]
      by_cases e1 : n = m
      · subst e1
        by_cases e2 : p = q
        · subst e2; simp [h, h2, GoMap.get_set]
        · simp [h, e2, GoMap.get_set]
      · simp [e1]

theorem part?_updPart (ds : Store) (n m : Bytes) (p q : I32) (f : Partition → Partition) :
    (ds.updPart n p f).part? m q = if n = m ∧ p = q then (ds.part? m q).map f else ds.part? m q := by
  cases h : GoMap.get ds n with
  | none =>
    by_cases e : n = m ∧ p = q
    · obtain ⟨rfl, rfl⟩ := e; simp [updPart, part?, h]
    · rw [if_neg e]; simp [updPart, h]
  | some kt =>
    cases h2 : GoMap.get kt p with
    | none =>
      by_cases e : n = m ∧ p = q
      · obtain ⟨rfl, rfl⟩ := e; simp [updPart, part?, h, h2]
      · rw [if_neg e]; simp [updPart, h, h2]
    | some kp =>
      simp only [updPart, part?, h, h2, GoMap.get_set]
      by_cases e1 : n = m
      · subst e1
        by_cases e2 : p = q
        · subst e2; simp [h, h2, GoMap.get_set]
        · simp [h, e2, GoMap.get_set]
      · simp [e1]

theorem keys_createTopic (ds : Store) (n : Bytes) :
    GoMap.keys (ds.createTopic n) = if (GoMap.get ds n).isSome then GoMap.keys ds else GoMap.keys ds ++ [n] := by
  unfold createTopic
  cases h : GoMap.get ds n with
  | some kt => simp
  | none => simp [GoMap.keys_set, h]

theorem keys_createPartition (ds : Store) (n : Bytes) (p : I32) : GoMap.keys (ds.createPartition n p) = GoMap.keys ds := by
  cases h : GoMap.get ds n with
  | none => simp [createPartition, h]
  | some kt => cases h2 : GoMap.get kt p <;> simp [createPartition, GoMap.keys_set, h, h2]

theorem keys_updPart (ds : Store) (n : Bytes) (p : I32) (f : Partition → Partition) : GoMap.keys (ds.updPart n p f) = GoMap.keys ds := by
  cases h : GoMap.get ds n with
  | none => simp [updPart, h]
  | some kt => cases h2 : GoMap.get kt p <;> simp [updPart, GoMap.keys_set, h, h2]

theorem get_isSome_createPartition (ds : Store) (n m : Bytes) (p : I32) :
    (GoMap.get (ds.createPartition n p) m).isSome = (GoMap.get ds m).isSome := by
  have h := GoMap.mem_keys_iff (ds.createPartition n p) m
  have h2 := GoMap.mem_keys_iff ds m
  rw [keys_createPartition] at h
  rw [Bool.eq_iff_iff]; exact h.symm.trans h2

theorem get_isSome_updPart (ds : Store) (n m : Bytes) (p : I32) (f : Partition → Partition) :
    (GoMap.get (ds.updPart n p f) m).isSome = (GoMap.get ds m).isSome := by
  have h := GoMap.mem_keys_iff (ds.updPart n p f) m
  have h2 := GoMap.mem_keys_iff ds m
  rw [keys_updPart] at h
  rw [Bool.eq_iff_iff]; exact h.symm.trans h2

/-- Topic of a store after `createPartition`. -/
theorem get_createPartition (ds : Store) (n m : Bytes) (p : I32) :
    GoMap.get (ds.createPartition n p) m = if n = m then (GoMap.get ds n).map (fun kt =>
      match GoMap.get kt p with | some _ => kt | none => GoMap.set kt p (newPartition p)) else GoMap.get ds m := by
  cases h : GoMap.get ds n with
  | none =>
    by_cases e : n = m
    · subst e; simp [createPartition, h]
    · simp [createPartition, h, e]
  | some kt =>
    cases h2 : GoMap.get kt p with
    | some kp =>
      by_cases e : n = m
      · subst e; simp [createPartition, h, h2]
      · simp [createPartition, h, h2, e]
    | none =>
      by_cases e : n = m
      · subst e; simp [createPartition, h, h2]
      · simp [createPartition, h, h2, e, GoMap.get_set]

theorem get_updPart (ds : Store) (n m : Bytes) (p : I32) (f : Partition → Partition) :
    GoMap.get (ds.updPart n p f) m = if n = m then (GoMap.get ds n).map (fun kt =>
      match GoMap.get kt p with | none => kt | some kp => GoMap.set kt p (f kp)) else GoMap.get ds m := by
  cases h : GoMap.get ds n with
  | none =>
    by_cases e : n = m
    · subst e; simp [updPart, h]
    · simp [updPart, h, e]
  | some kt =>
    cases h2 : GoMap.get kt p with
    | none =>
      by_cases e : n = m
      · subst e; simp [updPart, h, h2]
      · simp [updPart, h, h2, e]
    | some kp =>
      by_cases e : n = m
      · subst e; simp [updPart, h, h2]
      · simp [updPart, h, h2, e, GoMap.get_set]

end Store
end KM
