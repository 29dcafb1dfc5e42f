import Verif.LockLive
/-
Data races: two goroutines that are about to access the same variable, at least one of them to write it. Which variable an access reads and writes is
defined here for every access of `micro`, and it is proved that an access changes nothing else and depends on nothing else.
-/
namespace KM
open KM.Props

/-- The variables of the store, /repo/datastore.go:8-28. -/
inductive Field where
  /-- `ds.Topics` and the map -/
  | topics
  /-- `kt.Partitions` of a topic object, and the map -/
  | parts (a : Nat)
  /-- `kp.Records` of a partition object, and the records -/
  | records (x : Nat)
  /-- `kp.GroupCommittedOffsets` of a partition object, and the map -/
  | committed (x : Nat)
  /-- `kp.Index`, `kp.ErrorCode` and `kp.Metadata` of a partition object -/
  | info (x : Nat)
deriving DecidableEq, Repr

/-- What the next access of a goroutine that is about to do `a` reads. -/
def Act.reads (m : Mem) (l : Locals) (a : Act) : List Field :=
  match l.pc, a with
  | .out, .partInfo t p => (l.kp t p).toList.map .info
  | .out, .numRecords t p => (l.kp t p).toList.map .records
  | .out, .recordAt t p _ => (l.kp t p).toList.map .records
  | .out, .rangeTopics => [.topics]
  | .out, .rangePartitions t => match l.kt t with
    | some b => .parts b :: (m.parts b).map fun e => .info e.2
    | none => []
  | .inside .store none, .createTopic _ => [.topics]
  | .inside .store none, .getTopic _ => [.topics]
  | .inside (.topic b) none, .createPartition _ _ => [.parts b]
  | .inside (.topic b) none, .getPartition _ _ => [.parts b]
  | .inside (.part x) none, .post _ _ _ => [.records x]
  | .inside (.part x) none, .commit _ _ _ _ => [.committed x]
  | .inside (.part x) none, .groupCommitted _ _ _ => [.committed x]
  | .inside (.part x) none, .fetchRecord _ _ _ => [.records x]
  | .inside (.part x) (some _), .fetchRecord _ _ _ => [.records x]
  | _, _ => []

/-- What the next access writes. The fields of a new object are set before another goroutine has a pointer to it; they are not counted. -/
def Act.writes (l : Locals) (a : Act) : List Field :=
  match l.pc, a with
  | .inside .store (some _), .createTopic _ => [.topics]
  | .inside (.topic b) (some _), .createPartition _ _ => [.parts b]
  | .inside (.part x) (some _), .post _ _ _ => [.records x]
  | .inside (.part x) (some _), .commit _ _ _ _ => [.committed x]
  | .inside (.part x) (some _), .groupCommitted _ _ _ => [.committed x]
  | .inside (.part x) none, .setOffset _ _ _ _ => [.committed x]
  | _, _ => []

/-- The variable has the same value in both memories. -/
def Field.same (m m' : Mem) : Field → Prop
  | .topics => m'.topics = m.topics
  | .parts a => m'.parts a = m.parts a
  | .records x => (m'.data x).records = (m.data x).records
  | .committed x => (m'.data x).committed = (m.data x).committed
  | .info x => (m'.data x).index = (m.data x).index ∧ (m'.data x).errorCode = (m.data x).errorCode ∧ (m'.data x).metadata = (m.data x).metadata

/-- The variable is that of an allocated object. -/
def Field.allocated (m : Mem) : Field → Prop
  | .topics => True
  | .parts a => a < m.nT
  | .records x | .committed x | .info x => x < m.nP

theorem Field.same_refl (m : Mem) (v : Field) : v.same m m := by cases v <;> simp [Field.same]

/-- The memory after an access. -/
def MOut.mem {α : Type} : MOut α → Option Mem
  | .blocked => none
  | .go m _ => some m
  | .done _ m _ => some m

/-- What can be told of an access from its result and the goroutine's variables. -/
def MOut.obs {α : Type} : MOut α → Option (Option α × Locals)
  | .blocked => none
  | .go _ l => some (none, l)
  | .done r _ l => some (some r, l)

theorem setData_same {m : Mem} {x : Nat} {f : Partition → Partition} {v : Field} (hr : v ≠ .records x ∨ (f (m.data x)).records = (m.data x).records)
    (hc : v ≠ .committed x ∨ (f (m.data x)).committed = (m.data x).committed)
    (hi : (f (m.data x)).index = (m.data x).index ∧ (f (m.data x)).errorCode = (m.data x).errorCode ∧ (f (m.data x)).metadata = (m.data x).metadata) :
    v.same m (m.setData x f) := by
  cases v with
  | topics => rfl
  | parts a => rfl
  | records y =>
    by_cases e : y = x
    · subst e; simpa [Field.same, Mem.setData] using hr
    · simp [Field.same, Mem.setData, e]
  | committed y =>
    by_cases e : y = x
    · subst e; simpa [Field.same, Mem.setData] using hc
    · simp [Field.same, Mem.setData, e]
  | info y =>
    by_cases e : y = x
    · subst e; simpa [Field.same, Mem.setData] using hi
    · simp [Field.same, Mem.setData, e]

/-- An access changes no variable but those it writes. -/
theorem micro_frame {me : Tid} {a : Act} {m m' : Mem} {l : Locals} (h : (micro me a m l).mem = some m') {v : Field} (ha : v.allocated m)
    (hv : v ∉ a.writes l) : v.same m m' := by
  unfold micro at h
  split at h
  · next hp =>
    split at h
    · split at h <;> cases h; cases v <;> simp [Field.same, Mem.setLock]
    · unfold unlocked at h
      split at h <;> (try split at h) <;> cases h <;> exact v.same_refl _
  · next k s hp =>
    split at h
    · next hk =>
      unfold critical at h
      split at h <;> (try split at h) <;> first | (cases h; done) | skip
      all_goals first
        | (simp only [MOut.mem, Option.some.injEq] at h; subst h; exact v.same_refl _)
        | skip
      all_goals
        simp only [MOut.mem, Option.some.injEq] at h
        subst h
      · cases hk
        have : v ≠ .topics := by rintro rfl; exact hv (by simp [Act.writes, hp])
        cases v <;> first | exact absurd rfl this | exact rfl | exact ⟨rfl, rfl, rfl⟩
      · next b p' hk' =>
        cases v with
        | topics => rfl
        | parts b' =>
          have : b' ≠ b := by rintro rfl; exact hv (by simp [Act.writes, hp])
          exact if_neg this
        | records x => simp [Field.same, Nat.ne_of_lt ha]
        | committed x => simp [Field.same, Nat.ne_of_lt ha]
        | info x => simp [Field.same, Nat.ne_of_lt ha]
      all_goals
        refine setData_same ?_ ?_ ⟨rfl, rfl, rfl⟩ <;> first
          | exact .inr rfl
          | (left; rintro rfl; exact hv (by simp [Act.writes, hp]))
    · cases h
  · cases h

/-- What an access finds out depends on nothing but what it reads. -/
theorem micro_reads {me : Tid} {a : Act} {m m' : Mem} {l : Locals} (hv : ∀ v ∈ a.reads m l, v.same m m') (hl : m'.locks = m.locks) (hT : m'.nT = m.nT)
    (hP : m'.nP = m.nP) : (micro me a m' l).obs = (micro me a m l).obs := by
  unfold micro
  split
  · next hp =>
    split
    · rw [hl]; split <;> rfl
    · unfold unlocked
      split
      · split
        · next x hx =>
          have : Field.same m m' (.info x) := hv _ (by simp [Act.reads, hp, hx])
          simp [MOut.obs, this.1, this.2.1, this.2.2]
        · rfl
      · split
        · next x hx =>
          have : (m'.data x).records = _ := hv (.records x) (by simp [Act.reads, hp, hx])
          simp [MOut.obs, this]
        · rfl
      · split
        · next x hx =>
          have : (m'.data x).records = _ := hv (.records x) (by simp [Act.reads, hp, hx])
          simp [MOut.obs, this]
        · rfl
      · have : m'.topics = m.topics := hv .topics (by simp [Act.reads, hp])
        simp [MOut.obs, this]
      · split
        · next b hb =>
          have h1 : m'.parts b = m.parts b := hv (.parts b) (by simp [Act.reads, hp, hb])
          have h2 : ∀ e ∈ m.parts b, (m'.data e.2).index = (m.data e.2).index := fun e he =>
            (hv (.info e.2) (by simp only [Act.reads, hp, hb]; exact List.mem_cons_of_mem _ (List.mem_map.2 ⟨e, he, rfl⟩))).1
          simp only [MOut.obs, h1]
          rw [List.map_congr_left h2]
        · rfl
      · rfl
  · next k s hp =>
    split
    · next hk =>
      have T : Field.topics ∈ a.reads m l → m'.topics = m.topics := hv .topics
      have P : ∀ b, Field.parts b ∈ a.reads m l → m'.parts b = m.parts b := fun b => hv (.parts b)
      have R : ∀ x, Field.records x ∈ a.reads m l → (m'.data x).records = (m.data x).records := fun x => hv (.records x)
      have C : ∀ x, Field.committed x ∈ a.reads m l → (m'.data x).committed = (m.data x).committed := fun x => hv (.committed x)
      unfold critical
      split
      · cases hk; rw [T (by simp [Act.reads, hp])]; split <;> rfl
      · rw [hT]; split <;> rfl
      · cases hk; rw [T (by simp [Act.reads, hp])]; rfl
      · rw [P _ (by simp [Act.reads, hp])]; split <;> rfl
      · rw [hP]; split <;> rfl
      · rw [P _ (by simp [Act.reads, hp])]; rfl
      · rw [R _ (by simp [Act.reads, hp])]; rfl
      · rfl
      · rw [C _ (by simp [Act.reads, hp])]; split <;> rfl
      · split <;> rfl
      · rw [C _ (by simp [Act.reads, hp])]; split <;> rfl
      · split <;> rfl
      · rfl
      · rw [R _ (by simp [Act.reads, hp])]; split <;> rfl
      · rw [R _ (by simp [Act.reads, hp])]; split <;> rfl
      · rfl
    · rfl
  · rfl

/-! ### Races -/

/-- What the next access of a goroutine reads. -/
def Fine.reads (F : Fine) (t : Tid) : List Field := match F.sys.prog t with
  | some (.act a _) => a.reads F.mem (F.loc t)
  | _ => []

/-- What the next access of a goroutine writes. -/
def Fine.writes (F : Fine) (t : Tid) : List Field := match F.sys.prog t with
  | some (.act a _) => a.writes (F.loc t)
  | _ => []

/-- The mutex that guards a variable. -/
def Field.guard : Field → Option Lock
  | .topics => some .store
  | .parts a => some (.topic a)
  | .records x | .committed x => some (.part x)
  | .info _ => none

/-- Every write is made under the mutex of the variable. -/
theorem Act.writes_guard {a : Act} {l : Locals} {v : Field} (h : v ∈ a.writes l) : ∃ k s, v.guard = some k ∧ l.pc = .inside k s := by
  unfold Act.writes at h
  split at h
  all_goals first
    | (cases List.mem_singleton.1 h; exact ⟨_, _, rfl, by assumption⟩)
    | cases h

/-- The accesses without a mutex that read a variable written somewhere. -/
def Act.bare : Act → Field → Prop
  | .numRecords _ _, .records _ => True
  | .recordAt _ _ _, .records _ => True
  | .rangeTopics, .topics => True
  | .rangePartitions _, .parts _ => True
  | _, _ => False

/-- A read is made under the mutex of the variable, or of a variable that is never written, or is one of those in ListOffsets and SyncGroup. -/
theorem Act.reads_guard {m : Mem} {a : Act} {l : Locals} {v : Field} (h : v ∈ a.reads m l) :
    (∃ k s, v.guard = some k ∧ l.pc = .inside k s) ∨ v.guard = none ∨ (l.pc = .out ∧ a.bare v) := by
  unfold Act.reads at h
  split at h
  case h_5 =>
    split at h
    · rcases List.mem_cons.1 h with rfl | h
      · exact .inr (.inr ⟨by assumption, trivial⟩)
      · obtain ⟨e, _, rfl⟩ := List.mem_map.1 h; exact .inr (.inl rfl)
    · cases h
  case h_1 => obtain ⟨e, _, rfl⟩ := List.mem_map.1 h; exact .inr (.inl rfl)
  case h_2 => obtain ⟨e, _, rfl⟩ := List.mem_map.1 h; exact .inr (.inr ⟨by assumption, trivial⟩)
  case h_3 => obtain ⟨e, _, rfl⟩ := List.mem_map.1 h; exact .inr (.inr ⟨by assumption, trivial⟩)
  case h_4 => cases List.mem_singleton.1 h; exact .inr (.inr ⟨by assumption, trivial⟩)
  all_goals first
    | (cases List.mem_singleton.1 h; exact .inl ⟨_, _, rfl, by assumption⟩)
    | cases h

/-- What the posting functions do. -/
def Act.posting : Act → Prop
  | .createTopic _ | .createPartition _ _ | .now | .orderHeaders _ | .post _ _ _ | .getTopic _ | .getPartition _ _ | .setOffset _ _ _ _ => True
  | _ => False

theorem Call.posting {c : Call} {p : Prog Unit} (h : c.entry = .call p) : p.Only Act.posting := by
  cases c <;> cases h
  · exact ⟨trivial, fun _ => ⟨trivial, fun _ => ⟨trivial, fun _ => ⟨trivial, fun _ => trivial⟩⟩⟩⟩
  · exact ⟨trivial, fun _ => ⟨trivial, fun _ => ⟨trivial, fun _ => ⟨trivial, fun _ => trivial⟩⟩⟩⟩
  · next part ts =>
    induction ts with
    | nil => trivial
    | cons t ts ih => exact ⟨trivial, fun _ => ⟨trivial, fun _ => ih⟩⟩
  · refine ⟨trivial, fun kt => ?_⟩
    dsimp only
    split
    · refine ⟨trivial, fun kp => ?_⟩
      dsimp only
      split
      · exact ⟨trivial, fun _ => trivial⟩
      · trivial
    · trivial

end KM
