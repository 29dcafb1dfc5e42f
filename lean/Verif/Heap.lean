import Verif.TestApi
import Verif.History
/-
The aliasing of buffers: the store as it is in memory, where a record refers to the slices that the caller of `SimplePost` or `ExtendedPost` passed
(/repo/datastore.go:111-118 copies the slice headers, not the bytes). Everything else in this development takes a record to hold the bytes themselves;
here the two views are related.
-/
namespace KM

/-- A Go slice of bytes: a part of a buffer. -/
structure Slice where
  buf : Nat
  off : Nat
  len : Nat
deriving DecidableEq, Repr

/-- The contents of the buffers. -/
abbrev Heap := Nat → Bytes

/-- The bytes a slice shows. -/
def Slice.load (h : Heap) (s : Slice) : Bytes := ((h s.buf).drop s.off).take s.len

/-- /repo/datastore.go:30-41, with the slices. Header names are strings, which cannot change. -/
structure HRecord where
  attributes : I8
  timestamp : I64
  key : Option Slice
  value : Option Slice
  headers : List (Bytes × Option Slice)
deriving DecidableEq, Repr

def HRecord.load (h : Heap) (r : HRecord) : Record :=
  { attributes := r.attributes, timestamp := r.timestamp, key := r.key.map (·.load h), value := r.value.map (·.load h),
    headers := r.headers.map fun e => (e.1, e.2.map (·.load h)) }

/-- The slices of a record. -/
def HRecord.slices (r : HRecord) : List Slice := r.key.toList ++ r.value.toList ++ r.headers.filterMap (·.2)

/-- /repo/datastore.go:19-28 -/
structure HPartition where
  index : I32
  errorCode : I16
  records : List HRecord
  committed : List (Bytes × I64)
  metadata : Option Bytes
deriving DecidableEq, Repr

abbrev HTopic := List (I32 × HPartition)
abbrev HStore := List (Bytes × HTopic)

def HPartition.load (h : Heap) (kp : HPartition) : Partition :=
  { index := kp.index, errorCode := kp.errorCode, records := kp.records.map (·.load h), committed := kp.committed, metadata := kp.metadata }

def HTopic.load (h : Heap) (kt : HTopic) : Topic := kt.map fun e => (e.1, e.2.load h)

/-- The store by value. -/
def HStore.load (h : Heap) (ds : HStore) : Store := ds.map fun e => (e.1, HTopic.load h e.2)

namespace HStore

/-- /repo/datastore.go:50-62 -/
def createTopic (ds : HStore) (name : Bytes) : HStore :=
  match GoMap.get ds name with
  | some _ => ds
  | none => GoMap.set ds name []

/-- /repo/datastore.go:71-85 -/
def createPartition (ds : HStore) (name : Bytes) (number : I32) : HStore :=
  match GoMap.get ds name with
  | none => ds
  | some kt =>
    match GoMap.get kt number with
    | some _ => ds
    | none => GoMap.set ds name (GoMap.set kt number { index := number, errorCode := 0, records := [], committed := [], metadata := none })

def updPart (ds : HStore) (name : Bytes) (number : I32) (f : HPartition → HPartition) : HStore :=
  match GoMap.get ds name with
  | none => ds
  | some kt =>
    match GoMap.get kt number with
    | none => ds
    | some kp => GoMap.set ds name (GoMap.set kt number (f kp))

/-- /repo/datastore.go:102-119: the record keeps the caller's slices. -/
def postRecord (kp : HPartition) (r : HRecord) : HPartition := { kp with records := kp.records ++ [r] }

/-- /repo/offset_commit.go:66-72 -/
def commitOffset (kp : HPartition) (group : Bytes) (offset : I64) : HPartition :=
  let cur := (GoMap.get kp.committed group).getD 0
  if cur.toInt < offset.toInt then { kp with committed := GoMap.set kp.committed group offset } else kp

/-- /repo/datastore.go:121-130 -/
def touchGroup (kp : HPartition) (group : Bytes) : HPartition :=
  match GoMap.get kp.committed group with
  | some _ => kp
  | none => { kp with committed := GoMap.set kp.committed group 0 }

/-- /repo/kafka-mock.go:194-197 -/
def setOffset (kp : HPartition) (group : Bytes) (offset : I64) : HPartition := { kp with committed := GoMap.set kp.committed group offset }

end HStore

/-- What an action other than a post does to the store in memory. -/
def Act.onHeap : Act → HStore → HStore
  | .createTopic t, ds => ds.createTopic t
  | .createPartition t p, ds => ds.createPartition t p
  | .commit t p g o, ds => ds.updPart t p (HStore.commitOffset · g o)
  | .groupCommitted t p g, ds => ds.updPart t p (HStore.touchGroup · g)
  | .setOffset t p g o, ds => ds.updPart t p (HStore.setOffset · g o)
  | _, ds => ds

/-- The mock's shared data in memory, and the buffers. -/
structure HWorld where
  heap : Heap
  ds : HStore
  clock : Int
  cancelled : Bool

/-- What goroutines see of it. -/
def HWorld.view (w : HWorld) : World := ⟨w.ds.load w.heap, w.clock, w.cancelled⟩

/-- What happens: an action other than a post; a post of the given slices, which show the given bytes at that time; somebody writes to a buffer. -/
inductive HEv where
  | act (a : Act) (r : a.Resp)
  | post (topic : Bytes) (partition : I32) (rec : HRecord) (bytes : Record)
  | write (buf : Nat) (content : Bytes)

inductive HStep : HWorld → HEv → HWorld → Prop where
  | act {w : HWorld} {a : Act} {r : a.Resp} {w' : World} (hp : ∀ t p rec, a ≠ .post t p rec) (h : a.step w.view r w') :
      HStep w (.act a r) { w with ds := a.onHeap w.ds, clock := w'.clock, cancelled := w'.cancelled }
  | post {w : HWorld} {t : Bytes} {p : I32} {rec : HRecord} (h : (w.view.ds.part? t p).isSome) :
      HStep w (.post t p rec (rec.load w.heap)) { w with ds := w.ds.updPart t p (HStore.postRecord · rec) }
  | write {w : HWorld} (buf : Nat) (b : Bytes) : HStep w (.write buf b) { w with heap := fun n => if n = buf then b else w.heap n }

inductive HRun : HWorld → List HEv → HWorld → Prop where
  | nil (w : HWorld) : HRun w [] w
  | cons {w w1 w' : HWorld} {e : HEv} {es : List HEv} : HStep w e w1 → HRun w1 es w' → HRun w (e :: es) w'

/-! ### The two views -/

theorem get_map {K V V' : Type} [DecidableEq K] (f : V → V') (m : List (K × V)) (k : K) :
    GoMap.get (m.map fun e => (e.1, f e.2)) k = (GoMap.get m k).map f := by
  induction m with
  | nil => rfl
  | cons e m ih =>
    obtain ⟨a, b⟩ := e
    simp only [List.map_cons, GoMap.get]
    split
    · rfl
    · exact ih

theorem set_map {K V V' : Type} [DecidableEq K] (f : V → V') (m : List (K × V)) (k : K) (v : V) :
    (GoMap.set m k v).map (fun e => (e.1, f e.2)) = GoMap.set (m.map fun e => (e.1, f e.2)) k (f v) := by
  induction m with
  | nil => rfl
  | cons e m ih =>
    obtain ⟨a, b⟩ := e
    simp only [List.map_cons, GoMap.set]
    split
    · rfl
    · rw [List.map_cons, ih]

namespace HStore

theorem load_createTopic (h : Heap) (ds : HStore) (t : Bytes) : (ds.createTopic t).load h = (ds.load h).createTopic t := by
  unfold createTopic Store.createTopic HStore.load
  rw [get_map]
  cases GoMap.get ds t with
  | some _ => rfl
  | none => exact set_map (HTopic.load h) ds t []

theorem load_createPartition (h : Heap) (ds : HStore) (t : Bytes) (p : I32) : (ds.createPartition t p).load h = (ds.load h).createPartition t p := by
  unfold createPartition Store.createPartition HStore.load
  rw [get_map]
  cases GoMap.get ds t with
  | none => rfl
  | some kt =>
    simp only [Option.map_some]
    rw [show GoMap.get (HTopic.load h kt) p = (GoMap.get kt p).map (HPartition.load h) from get_map ..]
    cases GoMap.get kt p with
    | some _ => rfl
    | none =>
      simp only [Option.map_none]
      rw [set_map]
      congr 1
      exact set_map (HPartition.load h) kt p _

theorem load_updPart (h : Heap) (ds : HStore) (t : Bytes) (p : I32) {f : HPartition → HPartition} {f' : Partition → Partition}
    (hf : ∀ kp, (f kp).load h = f' (kp.load h)) : (ds.updPart t p f).load h = (ds.load h).updPart t p f' := by
  unfold updPart Store.updPart HStore.load
  rw [get_map]
  cases GoMap.get ds t with
  | none => rfl
  | some kt =>
    simp only [Option.map_some]
    rw [show GoMap.get (HTopic.load h kt) p = (GoMap.get kt p).map (HPartition.load h) from get_map ..]
    cases GoMap.get kt p with
    | none => rfl
    | some kp =>
      simp only [Option.map_some]
      rw [set_map]
      congr 1
      rw [← hf]
      exact set_map (HPartition.load h) kt p _

theorem load_postRecord (h : Heap) (r : HRecord) (kp : HPartition) : (postRecord kp r).load h = Store.postRecord (kp.load h) (r.load h) := by
  simp [postRecord, Store.postRecord, HPartition.load]

theorem load_commitOffset (h : Heap) (g : Bytes) (o : I64) (kp : HPartition) : (commitOffset kp g o).load h = Store.commitOffset (kp.load h) g o := by
  unfold commitOffset Store.commitOffset HPartition.load
  dsimp only
  split <;> rfl

theorem load_touchGroup (h : Heap) (g : Bytes) (kp : HPartition) : (touchGroup kp g).load h = Store.touchGroup (kp.load h) g := by
  unfold touchGroup Store.touchGroup
  show (match GoMap.get kp.committed g with | some _ => kp | none => _ : HPartition).load h = match GoMap.get kp.committed g with | some _ => kp.load h | none => _
  cases GoMap.get kp.committed g <;> rfl

end HStore

/-- An action other than a post does the same in both views. -/
theorem onHeap_load {a : Act} {w : HWorld} {r : a.Resp} {w' : World} (hp : ∀ t p rec, a ≠ .post t p rec) (h : a.step w.view r w') :
    HWorld.view { w with ds := a.onHeap w.ds, clock := w'.clock, cancelled := w'.cancelled } = w' := by
  have key : ∀ {ds : Store}, w'.ds = ds → (a.onHeap w.ds).load w.heap = ds →
      HWorld.view { w with ds := a.onHeap w.ds, clock := w'.clock, cancelled := w'.cancelled } = w' := by
    intro ds h1 h2
    unfold HWorld.view
    dsimp only
    rw [h2, ← h1]
  cases a <;> simp only [Act.step, World.withDs] at h
  case post t p rec => exact absurd rfl (hp t p rec)
  case createTopic t => subst h; exact key rfl (HStore.load_createTopic ..)
  case createPartition t p => obtain ⟨_, rfl⟩ := h; exact key rfl (HStore.load_createPartition ..)
  case commit t p g o => obtain ⟨_, rfl⟩ := h; exact key rfl (HStore.load_updPart _ _ _ _ (HStore.load_commitOffset _ g o))
  case groupCommitted t p g => obtain ⟨_, _, _, rfl⟩ := h; exact key rfl (HStore.load_updPart _ _ _ _ (HStore.load_touchGroup _ g))
  case setOffset t p g o => obtain ⟨_, rfl⟩ := h; exact key rfl (HStore.load_updPart _ _ _ _ (fun _ => rfl))
  all_goals first
    | (subst h; exact key rfl rfl)
    | (obtain ⟨rfl, _⟩ := h; exact key rfl rfl)
    | (obtain ⟨_, rfl⟩ := h; exact key rfl rfl)
    | (obtain ⟨_, rfl, _⟩ := h; exact key rfl rfl)
    | (obtain ⟨_, _, rfl⟩ := h; exact key rfl rfl)
    | (obtain ⟨_, _, rfl, _⟩ := h; exact key rfl rfl)
    | (obtain ⟨_, _, _, rfl⟩ := h; exact key rfl rfl)

/-- Some record in the store has the slice. -/
def HWorld.refers (w : HWorld) (s : Slice) : Prop := ∃ e ∈ w.ds, ∃ f ∈ e.2, ∃ rec ∈ f.2.records, s ∈ rec.slices

theorem load_slice {h h' : Heap} {s : Slice} (e : ∀ i, s.off ≤ i → i < s.off + s.len → (h' s.buf)[i]? = (h s.buf)[i]?) : s.load h' = s.load h := by
  unfold Slice.load
  refine List.ext_getElem? fun i => ?_
  rw [List.getElem?_take, List.getElem?_take, List.getElem?_drop, List.getElem?_drop]
  split
  · exact e _ (by omega) (by omega)
  · rfl

theorem load_record {h h' : Heap} {rec : HRecord} (e : ∀ s ∈ rec.slices, ∀ i, s.off ≤ i → i < s.off + s.len → (h' s.buf)[i]? = (h s.buf)[i]?) : rec.load h' = rec.load h := by
  have opt : ∀ o : Option Slice, (∀ s ∈ o, s ∈ rec.slices) → o.map (·.load h') = o.map (·.load h) := by
    intro o ho
    cases o with
    | none => rfl
    | some s => simp only [Option.map_some]; rw [load_slice (e _ (ho s rfl))]
  unfold HRecord.load
  rw [opt rec.key, opt rec.value]
  · congr 1
    refine List.map_congr_left fun x hx => ?_
    rw [opt x.2]
    intro s hs
    simp only [HRecord.slices, List.mem_append]
    exact .inr (List.mem_filterMap.2 ⟨x, hx, hs⟩)
  · intro s hs
    simp only [HRecord.slices, List.mem_append]
    exact .inl (.inr (Option.mem_toList.2 hs))
  · intro s hs
    simp only [HRecord.slices, List.mem_append]
    exact .inl (.inl (Option.mem_toList.2 hs))

/-- Writing to a buffer outside of the slices of records changes nothing that can be seen. -/
theorem write_unseen {w : HWorld} {buf : Nat} {b : Bytes} (h : ∀ s, w.refers s → s.buf = buf → ∀ i, s.off ≤ i → i < s.off + s.len → b[i]? = (w.heap buf)[i]?) :
    HWorld.view { w with heap := fun n => if n = buf then b else w.heap n } = w.view := by
  unfold HWorld.view
  dsimp only
  congr 1
  unfold HStore.load
  refine List.map_congr_left fun e he => ?_
  congr 1
  unfold HTopic.load
  refine List.map_congr_left fun f hf => ?_
  congr 1
  unfold HPartition.load
  congr 1
  refine List.map_congr_left fun rec hr => load_record fun s hs i h1 h2 => ?_
  split
  · next hb => rw [hb]; exact h s ⟨e, he, f, hf, rec, hr, hs⟩ hb i h1 h2
  · rfl

end KM
