import Verif.Race
import Verif.Props.Wire
/-
The store in memory, with pointers and mutexes: C63 (the functions of the store act at once), C64 (its mutexes never block the mock for good),
C65 (data races).
-/
namespace KM.Props
open KM KM.Spec

theorem Fine.Run.append {F F1 F2 : Fine} {a b : List FEv} (h1 : Fine.Run F a F1) (h2 : Fine.Run F1 b F2) : Fine.Run F (a ++ b) F2 := by
  induction h1 with
  | nil => exact h2
  | cons h _ ih => exact .cons h (ih h2)

/-- The steps of the mock in which an action took effect, in order. -/
def settled (tr : List FEv) : List SEv := tr.filterMap FEv.sys?

/-! ### C63 -/

/-- **C63**: every run of the mock with pointers and mutexes, in which the functions of the store are sequences of single accesses that interleave with
those of all other goroutines, is a run of the mock in which each function of the store acts at once. -/
theorem C63_atomic {sv : Server} {clock : Int} {tr : List FEv} {F : Fine} (h : Fine.Run (Fine.new sv clock) tr F) :
    Sys.Run (Sys.new sv clock) (settled tr) { F.sys with ds := F.mem.load } := (h.refines (Fine.new_wf sv clock)).2

/-- Topic `t` is object `a`, and its partition `p` is object `x`. -/
def Mem.at (m : Mem) (t : Bytes) (p : I32) (x : Nat) : Prop := ∃ a, GoMap.get m.topics t = some a ∧ GoMap.get (m.parts a) p = some x

theorem Mem.at_ext {F F' : Fine} {tr : List FEv} (h : Fine.Run F tr F') (hF : F.WF) {t : Bytes} {p : I32} {x : Nat} (hx : Mem.at F.mem t p x) :
    Mem.at F'.mem t p x := by
  induction h with
  | nil => exact hx
  | cons h _ ih =>
    refine ih (h.refines hF).1 ?_
    obtain ⟨a, h1, h2⟩ := hx
    exact ⟨a, (h.ext hF).2.1 _ _ h1, (h.ext hF).2.2 _ _ _ h2⟩

/-- **C63**, no update is lost: in the course of any run, the records of a partition object are those it had, followed by the records that were posted to
the partition of that name, each once and in the order in which the appends took effect; the committed offset of a group is the earlier one, updated by the
commits and resets in the order in which they took effect; and the name keeps leading to the same object. -/
theorem C63_no_lost_update {sv : Server} {clock : Int} {t0 tr : List FEv} {F F' : Fine} (h0 : Fine.Run (Fine.new sv clock) t0 F) (h : Fine.Run F tr F')
    {t : Bytes} {p : I32} {x : Nat} (hx : Mem.at F.mem t p x) :
    Mem.at F'.mem t p x ∧ (F'.mem.data x).records = (F.mem.data x).records ++ Spec.posts (effectsOf (settled tr)) t p ∧
    ∀ g, ((GoMap.get (F'.mem.data x).committed g).getD 0).toInt =
      Spec.committedFrom ((GoMap.get (F.mem.data x).committed g).getD 0).toInt (effectsOf (settled tr)) t p g := by
  have hF := (h0.refines (Fine.new_wf sv clock)).1
  have hx' := Mem.at_ext h hF hx
  have hk := C46_kept (h.refines hF).2
  have log : ∀ {m : Mem} {s : Sys}, Mem.at m t p x → (({ s with ds := m.load } : Sys).view 0).log t p = (m.data x).records := by
    rintro m s ⟨a, h1, h2⟩
    have : m.load.part? t p = some (m.data x) := by rw [Mem.part?_load h1, h2]; rfl
    show ((m.load.part? t p).map (·.records)).getD [] = _
    rw [this]; rfl
  have com : ∀ {m : Mem} {s : Sys} (g : Bytes), Mem.at m t p x → (({ s with ds := m.load } : Sys).view 0).committed t p g =
      (GoMap.get (m.data x).committed g).getD 0 := by
    rintro m s g ⟨a, h1, h2⟩
    have : m.load.part? t p = some (m.data x) := by rw [Mem.part?_load h1, h2]; rfl
    show ((m.load.part? t p).bind fun kp => GoMap.get kp.committed g).getD 0 = _
    rw [this]; rfl
  refine ⟨hx', ?_, fun g => ?_⟩
  · have := hk.1 t p
    unfold Fine.load at this
    rw [log hx, log hx'] at this
    exact this
  · have := hk.2.1 t p g
    unfold Fine.load at this
    rw [com g hx, com g hx'] at this
    exact this

/-! ### C64 -/

/-- **C64**, progress: in every state the mock can get into, a connection that is serving requests and a caller inside a posting function can make a step
(unless the handler has panicked, which ends the process), or they wait for a mutex of the store held by another goroutine, and that one can make a step. -/
theorem C64_progress {sv : Server} {clock : Int} {tr : List FEv} {F : Fine} (h : Fine.Run (Fine.new sv clock) tr F) {t : Tid} {p : Prog Unit}
    (hp : F.sys.prog t = some p) (hne : p ≠ .panic) : F.canStep t ∨ ∃ k u, u ≠ t ∧ F.mem.locks k = some u ∧ F.canStep u := by
  have hF := h.refines (Fine.new_wf sv clock)
  refine Fine.progress hF.1 (h.live (Fine.new_wf sv clock) (Fine.new_live sv clock)) (fun i q hq => ?_) hp hne
  obtain ⟨_, _, _, _, c, q', es, _, _, _, _, _, h1, _, h2, _⟩ := hF.2.called (show F.load.api i = _ from hq)
  exact h2.flat (Call.flat h1)

/-- **C64**, no nil pointer: a goroutine that is about to use a topic or a partition has a pointer to it, and the pointer is the one in the store's maps. -/
theorem C64_no_nil {sv : Server} {clock : Int} {tr : List FEv} {F : Fine} (h : Fine.Run (Fine.new sv clock) tr F) {u : Tid} {a : Act}
    {f : a.Resp → Prog Unit} (hp : F.sys.prog u = some (.act a f)) :
    (∀ t, a.needs = some (t, none) → ∃ b, (F.loc u).kt t = some b ∧ GoMap.get F.mem.topics t = some b) ∧
    ∀ t p, a.needs = some (t, some p) → ∃ x, (F.loc u).kp t p = some x ∧ Mem.at F.mem t p x := by
  have hF := (h.refines (Fine.new_wf sv clock)).1
  obtain ⟨K, Q, h1, h2⟩ := (h.live (Fine.new_wf sv clock) (Fine.new_live sv clock) u).ok _ hp
  refine ⟨fun t ht => ?_, fun t p ht => ?_⟩
  · obtain ⟨b, hb⟩ := Option.isSome_iff_exists.1 (h2 _ (h1.1 _ ht))
    exact ⟨b, hb, (hF.loc u).kt t b hb⟩
  · obtain ⟨x, hx⟩ := Option.isSome_iff_exists.1 (h2 _ (h1.1 _ ht))
    exact ⟨x, hx, (hF.loc u).kp t p x hx⟩

/-- **C64**: a goroutine holds at most one mutex of the store at a time. -/
theorem C64_one_mutex {sv : Server} {clock : Int} {tr : List FEv} {F : Fine} (h : Fine.Run (Fine.new sv clock) tr F) {t : Tid} {j k : Lock}
    (hj : F.mem.locks j = some t) (hk : F.mem.locks k = some t) : j = k := by
  have hF := (h.refines (Fine.new_wf sv clock)).1
  rcases hF.owner j t hj with h1 | ⟨s, h1⟩ <;> rcases hF.owner k t hk with h2 | ⟨s', h2⟩ <;> rw [h1] at h2 <;> cases h2 <;> rfl

/-- **C64**: a mutex of the store is free again after at most three steps of the goroutine that holds it, whatever the others do. -/
theorem C64_released {sv : Server} {clock : Int} {t0 tr : List FEv} {F F' : Fine} (h0 : Fine.Run (Fine.new sv clock) t0 F) (h : Fine.Run F tr F')
    {t : Tid} {k : Lock} (hk : F.mem.locks k = some t) (hn : 3 ≤ stepsOf t tr) :
    ∃ t1 t2 F1, tr = t1 ++ t2 ∧ Fine.Run F t1 F1 ∧ Fine.Run F1 t2 F' ∧ F1.mem.locks k = none :=
  h.release (h0.refines (Fine.new_wf sv clock)).1 hk (Nat.le_trans (LockPc.left_le _) hn)

/-- **C64**: a goroutine that has ended its request or call holds no mutex of the store. -/
theorem C64_none_left {sv : Server} {clock : Int} {tr : List FEv} {F : Fine} (h : Fine.Run (Fine.new sv clock) tr F) {t : Tid}
    (hp : F.sys.prog t = none) (k : Lock) : F.mem.locks k ≠ some t := by
  intro hk
  have hF := (h.refines (Fine.new_wf sv clock)).1
  have := (h.live (Fine.new_wf sv clock) (Fine.new_live sv clock) t).idle hp
  rcases hF.owner k t hk with h1 | ⟨s, h1⟩ <;> rw [this] at h1 <;> cases h1

/-! ### C65 -/

/-- Two goroutines are about to access the same variable at the same time, the first to write it. -/
def Race (F : Fine) (t u : Tid) (v : Field) : Prop := t ≠ u ∧ v ∈ F.writes t ∧ (v ∈ F.reads u ∨ v ∈ F.writes u)

/-- C65, what holds: in every state the mock can get into, of two goroutines that race one is a connection about to read without locking: the number
of records or a record of a partition (in ListOffsets), or the map of topics or of a topic's partitions (in SyncGroup). No two writes race, and all accesses of
the other requests and of the posting functions exclude each other. Missing for the full statement: it is false, `C65_false_list_offsets`,
`C65_false_sync_group`. -/
theorem C65_locked_partial {sv : Server} {clock : Int} {tr : List FEv} {F : Fine} (h : Fine.Run (Fine.new sv clock) tr F) {t u : Tid} {v : Field}
    (hr : Race F t u v) : v ∉ F.writes u ∧ ∃ c a f, u = .conn c ∧ F.sys.prog u = some (.act a f) ∧ a.bare v := by
  obtain ⟨hne, hw, hu⟩ := hr
  have hF := h.refines (Fine.new_wf sv clock)
  have writes : ∀ {t}, v ∈ F.writes t → ∃ k, v.guard = some k ∧ F.mem.locks k = some t := by
    intro t hw
    unfold Fine.writes at hw
    split at hw
    · obtain ⟨k, s, h1, h2⟩ := Act.writes_guard hw
      exact ⟨k, h1, ((hF.1.loc t).held k s h2).1⟩
    · cases hw
  obtain ⟨k, hk, hl⟩ := writes hw
  have other : ¬ F.mem.locks k = some u := fun h => hne (by rw [hl] at h; cases h; rfl)
  have nw : v ∉ F.writes u := fun hw' => by
    obtain ⟨j, hj, hl'⟩ := writes hw'
    rw [hk] at hj; cases hj
    exact other hl'
  refine ⟨nw, ?_⟩
  rcases hu with hu | hu
  · unfold Fine.reads at hu
    split at hu
    · next a f hp =>
      rcases Act.reads_guard hu with ⟨j, s, h1, h2⟩ | h1 | ⟨_, h2⟩
      · rw [hk] at h1; cases h1
        exact absurd ((hF.1.loc u).held k s h2).1 other
      · rw [hk] at h1; cases h1
      · cases u with
        | conn c => exact ⟨c, a, f, rfl, hp, h2⟩
        | api i =>
          obtain ⟨_, _, _, _, c, q', es, _, _, _, _, _, h3, _, h4, _⟩ := hF.2.called (show F.load.api i = _ from Sys.prog_api.1 hp)
          have := (h4.only (Call.posting h3)).1.1
          cases a <;> first | exact h2.elim | exact this.elim
    · cases hu
  · exact absurd hu nw

/-- **C65** is about the accesses of the mock: each step of a goroutine on the store changes no variable of an existing object but those it writes, and what it
finds out depends on nothing but what it reads. -/
theorem C65_accesses {F : Fine} {t : Tid} {a : Act} {f : a.Resp → Prog Unit} (hp : F.sys.prog t = some (.act a f)) :
    (∀ m', (micro t a F.mem (F.loc t)).mem = some m' → ∀ v : Field, v.allocated F.mem → v ∉ F.writes t → v.same F.mem m') ∧
    ∀ m', (∀ v ∈ F.reads t, v.same F.mem m') → m'.locks = F.mem.locks → m'.nT = F.mem.nT → m'.nP = F.mem.nP →
      (micro t a m' (F.loc t)).obs = (micro t a F.mem (F.loc t)).obs := by
  simp only [Fine.writes, Fine.reads, hp]
  exact ⟨fun m' h v ha hv => micro_frame h ha hv, fun m' hv hl hT hP => micro_reads hv hl hT hP⟩

/-! ### Examples -/

def fineAfter (ps : List Pick) : Fine := ((Fine.play ps (Fine.new ⟨9092, []⟩ 0)).map Prod.snd).getD (Fine.new ⟨9092, []⟩ 0)

def fineEvents (ps : List Pick) : List FEv := ((Fine.play ps (Fine.new ⟨9092, []⟩ 0)).map Prod.fst).getD []

theorem fineAfter_run (ps : List Pick) : Fine.Run (Fine.new ⟨9092, []⟩ 0) (fineEvents ps) (fineAfter ps) := by
  unfold fineEvents fineAfter
  cases h : Fine.play ps (Fine.new ⟨9092, []⟩ 0) with
  | none => exact .nil _
  | some x => exact Fine.play_sound h

/-- The mock is started and caller 0 posts a record, access by access. -/
def fineBoot : List Pick := starts 0 ++ opens 0 ++ caller 0 (.simplePost [116] 0 none (some [1, 2])) 15

/-- After that, callers 0 and 1 post to the same partition: caller 0 has read the records and not yet written them back, and caller 1 is about to lock. -/
def twoPosters : List Pick :=
  fineBoot ++ caller 0 (.simplePost [116] 0 none (some [3])) 10 ++ caller 1 (.simplePost [116] 0 none (some [4])) 8

/-- Both return. -/
def twoPosted : List Pick :=
  twoPosters ++ caller 0 (.simplePost [116] 0 none (some [3])) 3 ++ caller 1 (.simplePost [116] 0 none (some [4])) 5

/-- Caller 1 cannot go on as long as caller 0 holds the mutex; caller 0 can. -/
example : (fineAfter twoPosters).mem.locks (.part 0) = some (.api 0) ∧ ((fineAfter twoPosters).pick (.api 1 (.simplePost [116] 0 none (some [4])))).isNone ∧
    ((fineAfter twoPosters).pick (.api 0 (.simplePost [116] 0 none (some [3])))).isSome ∧ (fineAfter twoPosters).reads (.api 1) = [] ∧
    (fineAfter twoPosters).writes (.api 0) = [.records 0] := by decide +kernel

/-- Both records are there afterwards. -/
example : (((fineAfter twoPosted).mem.data 0).records.map (·.value)) = [some [1, 2], some [3], some [4]] ∧
    (((fineAfter twoPosted).sys.api 0) matches .idle) ∧ (((fineAfter twoPosted).sys.api 1) matches .idle) ∧ (fineAfter twoPosted).mem.locks (.part 0) = none := by
  decide +kernel

/-- The premise of `C63_no_lost_update`: topic "t" is object 0, and its partition 0 is object 0. -/
example : Mem.at (fineAfter fineBoot).mem [116] 0 0 := ⟨0, by decide +kernel, by decide +kernel⟩

/-- A client asks for the end of the log while caller 0 appends: the connection is about to read `len(kp.Records)`, the caller to assign `kp.Records`. -/
def listRace : List Pick :=
  fineBoot ++ accepts 0 ++ asks 0 askLatest 7 ++ List.replicate 8 (.conn 0) ++ caller 0 (.simplePost [116] 0 none (some [3])) 10

/-- A client asks for its assignment while caller 0 creates a topic: the connection is about to iterate over `ds.Topics`, the caller to insert into it. -/
def syncRace : List Pick := fineBoot ++ accepts 0 ++ asks 0 askSync 7 ++ [.conn 0] ++ caller 0 (.createPartitionTopics 0 [[117]]) 3

/-- **C65** is false: ListOffsets reads the records of a partition without locking, /repo/list_offsets.go:63, while `SimplePost` assigns them. -/
theorem C65_false_list_offsets : ∃ (tr : List FEv) (F : Fine), Fine.Run (Fine.new ⟨9092, []⟩ 0) tr F ∧ Race F (.api 0) (.conn 0) (.records 0) :=
  ⟨_, _, fineAfter_run listRace, nofun, by decide +kernel, .inl (by decide +kernel)⟩

/-- **C65** is false: SyncGroup iterates over the map of topics without locking, /repo/sync_group.go:59, while `CreatePartitionTopics` inserts into it; Go
ends the process when it notices. -/
theorem C65_false_sync_group : ∃ (tr : List FEv) (F : Fine), Fine.Run (Fine.new ⟨9092, []⟩ 0) tr F ∧ Race F (.api 0) (.conn 0) .topics :=
  ⟨_, _, fineAfter_run syncRace, nofun, by decide +kernel, .inl (by decide +kernel)⟩

end KM.Props
