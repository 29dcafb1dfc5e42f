import Verif.Only
import Verif.Lifecycle
/-
Runs without record headers: whatever happens in a run of the mock happens also when no record has headers, with the same bytes read and written by all connections.
-/
namespace KM

/-- The record without its headers. -/
def Record.bare (r : Record) : Record := { r with headers := [] }

def Partition.bare (kp : Partition) : Partition := { kp with records := kp.records.map Record.bare }

def Topic.bare (kt : Topic) : Topic := kt.map fun f => (f.1, f.2.bare)

/-- The store with the headers taken off all records. -/
def Store.bare (ds : Store) : Store := ds.map fun e => (e.1, Topic.bare e.2)

def World.bare (w : World) : World := { w with ds := w.ds.bare }

/-- The action on records without headers. -/
def Act.plain : Act → Act
  | .post t p r => .post t p r.bare
  | .orderHeaders _ => .orderHeaders []
  | a => a

/-- Its result. -/
def Act.bareResp : (a : Act) → a.Resp → a.plain.Resp
  | .post _ _ _, r => r
  | .orderHeaders _, _ => []
  | .recordAt _ _ _, r => r.map Record.bare
  | .fetchRecord _ _ _, r => r.map fun x => x.map Record.bare
  | .createTopic _, r | .getTopic _, r | .createPartition _ _, r | .getPartition _ _, r | .commit _ _ _ _, r | .groupCommitted _ _ _, r | .setOffset _ _ _ _, r
  | .partInfo _ _, r | .numRecords _ _, r | .rangeTopics, r | .rangePartitions _, r | .order _, r | .orderInt _, r | .now, r | .isDone, r | .sleep _, r | .tick _, r
  | .cancel, r | .recv, r | .isStopping, r | .write _, r | .isConnected, r | .close, r | .reqBegin _, r | .reqEnd, r => r

/-! ### The store -/

theorem get_mapSnd {κ α β : Type} [DecidableEq κ] (m : List (κ × α)) (f : α → β) (k : κ) :
    GoMap.get (m.map fun e => (e.1, f e.2)) k = (GoMap.get m k).map f := by
  induction m with
  | nil => rfl
  | cons e m ih =>
    simp only [List.map_cons, GoMap.get] at ih ⊢
    split <;> simp_all

theorem set_mapSnd {κ α β : Type} [DecidableEq κ] (m : List (κ × α)) (f : α → β) (k : κ) (v : α) :
    (GoMap.set m k v).map (fun e => (e.1, f e.2)) = GoMap.set (m.map fun e => (e.1, f e.2)) k (f v) := by
  induction m with
  | nil => rfl
  | cons e m ih =>
    simp only [List.map_cons, GoMap.set] at ih ⊢
    split <;> simp_all

theorem bare_get (ds : Store) (t : Bytes) : GoMap.get ds.bare t = (GoMap.get ds t).map Topic.bare := get_mapSnd ds Topic.bare t

theorem bare_set (ds : Store) (t : Bytes) (kt : Topic) : Store.bare (GoMap.set ds t kt) = GoMap.set ds.bare t (Topic.bare kt) := set_mapSnd ds Topic.bare t kt

theorem bare_getPart (kt : Topic) (p : I32) : GoMap.get (Topic.bare kt) p = (GoMap.get kt p).map Partition.bare := get_mapSnd kt Partition.bare p

theorem bare_setPart (kt : Topic) (p : I32) (kp : Partition) : Topic.bare (GoMap.set kt p kp) = GoMap.set (Topic.bare kt) p kp.bare := set_mapSnd kt Partition.bare p kp

theorem bare_createTopic (ds : Store) (t : Bytes) : (ds.createTopic t).bare = ds.bare.createTopic t := by
  unfold Store.createTopic
  rw [bare_get]
  cases h : GoMap.get ds t with
  | some kt => rfl
  | none => exact bare_set ..

theorem bare_createPartition (ds : Store) (t : Bytes) (p : I32) : (ds.createPartition t p).bare = ds.bare.createPartition t p := by
  unfold Store.createPartition
  rw [bare_get]
  cases h : GoMap.get ds t with
  | none => rfl
  | some kt =>
    simp only [Option.map_some, bare_getPart]
    cases h2 : GoMap.get kt p with
    | some kp => rfl
    | none =>
      simp only [Option.map_none]
      rw [bare_set, bare_setPart]
      rfl

theorem bare_part (ds : Store) (t : Bytes) (p : I32) : ds.bare.part? t p = (ds.part? t p).map Partition.bare := by
  unfold Store.part?
  rw [bare_get]
  cases GoMap.get ds t with
  | none => rfl
  | some kt => simp only [Option.map_some, Option.bind_some, bare_getPart]

theorem bare_updPart (ds : Store) (t : Bytes) (p : I32) {f g : Partition → Partition} (h : ∀ kp, (f kp).bare = g kp.bare) :
    (ds.updPart t p f).bare = ds.bare.updPart t p g := by
  unfold Store.updPart
  rw [bare_get]
  cases GoMap.get ds t with
  | none => rfl
  | some kt =>
    simp only [Option.map_some, bare_getPart]
    cases GoMap.get kt p with
    | none => rfl
    | some kp =>
      simp only [Option.map_some]
      rw [bare_set, bare_setPart, h]

theorem bare_keys (ds : Store) : GoMap.keys ds.bare = GoMap.keys ds := by
  simp [GoMap.keys, Store.bare, List.map_map, Function.comp_def]

/-- What an action does to the store, it does to the store without headers. -/
theorem Act.step_bare {a : Act} {w w' : World} {r : a.Resp} (h : a.step w r w') : a.plain.step w.bare (a.bareResp r) w'.bare := by
  have hp : ∀ t p, (w.ds.part? t p).isSome → (w.bare.ds.part? t p).isSome := by
    intro t p h
    show (w.ds.bare.part? t p).isSome
    rw [bare_part]; simpa using h
  have hp' : ∀ {t p kp}, w.ds.part? t p = some kp → w.bare.ds.part? t p = some kp.bare := by
    intro t p kp h
    show w.ds.bare.part? t p = _
    rw [bare_part, h]; rfl
  have ht : ∀ t, (GoMap.get w.ds t).isSome → (GoMap.get w.bare.ds t).isSome := by
    intro t h
    show (GoMap.get w.ds.bare t).isSome
    rw [bare_get]; simpa using h
  cases a
  case createTopic t => cases h; exact congrArg (World.withDs _) (bare_createTopic ..)
  case getTopic t =>
    obtain ⟨rfl, rfl⟩ := h
    refine ⟨rfl, ?_⟩
    show _ = (GoMap.get w'.ds.bare t).isSome
    rw [bare_get]; simp [bareResp, Store.getTopic]
  case createPartition t p => exact ⟨ht _ h.1, by rw [h.2]; exact congrArg (World.withDs _) (bare_createPartition ..)⟩
  case getPartition t p =>
    obtain ⟨h1, rfl, rfl⟩ := h
    refine ⟨ht _ h1, rfl, ?_⟩
    show _ = (w'.ds.bare.part? t p).isSome
    rw [bare_part]; simp [bareResp, Store.getPartition]
  case post t p r =>
    refine ⟨hp _ _ h.1, ?_⟩
    rw [h.2]
    exact congrArg (World.withDs _) (bare_updPart _ _ _ fun kp => by simp [Partition.bare, Store.postRecord])
  case commit t p g o =>
    refine ⟨hp _ _ h.1, ?_⟩
    rw [h.2]
    refine congrArg (World.withDs _) (bare_updPart _ _ _ fun kp => ?_)
    unfold Store.commitOffset
    dsimp only [Partition.bare]
    split <;> rfl
  case groupCommitted t p g =>
    obtain ⟨kp, h1, rfl, h2⟩ := h
    refine ⟨kp.bare, hp' h1, rfl, ?_⟩
    rw [h2]
    refine congrArg (World.withDs _) (bare_updPart _ _ _ fun kp => ?_)
    unfold Store.touchGroup
    dsimp only [Partition.bare]
    cases GoMap.get kp.committed g <;> rfl
  case setOffset t p g o =>
    refine ⟨hp _ _ h.1, ?_⟩
    rw [h.2]
    exact congrArg (World.withDs _) (bare_updPart _ _ _ fun kp => rfl)
  case partInfo t p => obtain ⟨kp, h1, rfl, rfl⟩ := h; exact ⟨kp.bare, hp' h1, rfl, rfl⟩
  case numRecords t p => obtain ⟨kp, h1, rfl, rfl⟩ := h; exact ⟨kp.bare, hp' h1, by simp [bareResp, Partition.bare], rfl⟩
  case recordAt t p i =>
    obtain ⟨kp, h1, rfl, rfl⟩ := h
    refine ⟨kp.bare, hp' h1, rfl, ?_⟩
    dsimp only [bareResp]
    split <;> simp [Partition.bare]
  case fetchRecord t p i =>
    obtain ⟨kp, h1, rfl, rfl⟩ := h
    refine ⟨kp.bare, hp' h1, rfl, ?_⟩
    simp only [bareResp, Partition.bare, List.length_map]
    split
    · split <;> simp
    · rfl
  case rangeTopics =>
    obtain ⟨rfl, h1⟩ := h
    refine ⟨rfl, ?_⟩
    show List.Perm r (GoMap.keys w'.ds.bare)
    rw [bare_keys]; exact h1
  case rangePartitions t =>
    obtain ⟨rfl, kt, h1, h2⟩ := h
    refine ⟨rfl, Topic.bare kt, ?_, ?_⟩
    · show GoMap.get w'.ds.bare t = _
      rw [bare_get, h1]; rfl
    · show List.Perm r _
      simpa [Topic.bare, List.map_map, Function.comp_def, Partition.bare] using h2
  case orderHeaders hs => obtain ⟨rfl, _⟩ := h; exact ⟨rfl, .nil⟩
  case sleep d => obtain ⟨c, h1, rfl⟩ := h; exact ⟨c, h1, rfl⟩
  case tick d => cases h; rfl
  case cancel => cases h; rfl
  case recv => obtain ⟨rfl, h⟩ := h; exact ⟨rfl, h⟩
  case order => obtain ⟨rfl, h⟩ := h; exact ⟨rfl, h⟩
  case orderInt => obtain ⟨rfl, h⟩ := h; exact ⟨rfl, h⟩
  case now => obtain ⟨rfl, h⟩ := h; exact ⟨rfl, h⟩
  case isDone => obtain ⟨rfl, h⟩ := h; exact ⟨rfl, h⟩
  all_goals (cases h; rfl)

/-! ### Programs -/

/-- `q` does the same as `p`, if it gets the same results without headers. -/
inductive Prog.Twin : {α : Type} → Prog α → Prog α → Prop where
  | ret {α : Type} (v : α) : Twin (.ret v) (.ret v)
  | panic {α : Type} : Twin (.panic : Prog α) .panic
  | act {α : Type} {a : Act} {f : a.Resp → Prog α} {g : a.plain.Resp → Prog α} (h : ∀ r, Twin (f r) (g (a.bareResp r))) : Twin (.act a f) (.act a.plain g)
  | loop {α σ β : Type} (s : σ) {b b' : σ → Prog (σ ⊕ β)} {k k' : β → Prog α} (hb : ∀ s, Twin (b s) (b' s)) (hk : ∀ x, Twin (k x) (k' x)) :
      Twin (.loop s b k) (.loop s b' k')

namespace Prog.Twin

variable {α β : Type}

theorem bind {p q : Prog α} {f g : α → Prog β} (h : p.Twin q) (hf : ∀ v, (f v).Twin (g v)) : (p.bind f).Twin (q.bind g) := by
  induction h with
  | ret v => exact hf v
  | panic => exact .panic
  | act h ih => exact .act fun r => ih r hf
  | loop s hb hk _ ih => exact .loop s hb fun x => ih x hf

theorem map {p q : Prog α} (f : α → β) (h : p.Twin q) : (p.map f).Twin (q.map f) := h.bind fun _ => .ret _

theorem forEach {f g : α → Prog β} (xs : List α) (h : ∀ x, (f x).Twin (g x)) : (Prog.forEach f xs).Twin (Prog.forEach g xs) := by
  induction xs with
  | nil => exact .ret _
  | cons x xs ih => exact (h x).bind fun _ => ih.bind fun _ => .ret _

theorem unroll {σ : Type} {s : σ} {b b' : σ → Prog (σ ⊕ β)} {k k' : β → Prog α} (hb : ∀ s, (b s).Twin (b' s)) (hk : ∀ x, (k x).Twin (k' x)) :
    (Prog.unroll s b k).Twin (Prog.unroll s b' k') := by
  refine (hb s).bind ?_
  rintro (s' | x)
  · exact .loop s' hb hk
  · exact hk x

/-- An action whose result has no headers. -/
def _root_.KM.Act.Plain : Act → Prop
  | .post _ _ _ | .orderHeaders _ | .recordAt _ _ _ | .fetchRecord _ _ _ => False
  | _ => True

theorem act_plain {a : Act} (ha : a.Plain) {f g : a.Resp → Prog α} (h : ∀ r, (f r).Twin (g r)) : (Prog.act a f).Twin (.act a g) := by
  cases a
  case post => exact ha.elim
  case orderHeaders => exact ha.elim
  case recordAt => exact ha.elim
  case fetchRecord => exact ha.elim
  all_goals exact .act h

theorem of_plain {p : Prog α} (h : p.Only Act.Plain) : p.Twin p := by
  induction p with
  | ret v => exact .ret v
  | panic => exact .panic
  | act a k ih => exact act_plain h.1 fun r => ih r (h.2 r)
  | loop s body k ihb ih => exact .loop s (fun s => ihb s (h.1 s)) fun b => ih b (h.2 b)

theorem withRequest {fs : Fields} (r : Reader) {k : fs.den → Prog (Option Dyn)} (hk : ∀ v, (k v).Twin (k v)) : (withRequest fs r k).Twin (withRequest fs r k) := by
  unfold KM.withRequest
  split
  · exact .ret _
  · exact .panic
  · refine (hk _).bind ?_
    rintro (_ | d)
    · exact .ret _
    · exact .ret _

end Prog.Twin

theorem append_bare (ms : MessageSetV1) (r : Record) (n : Int) : ms.append r.bare n = ms.append r n := rfl

theorem fetch_twin (q : FetchRequest) : (fetch q).Twin (fetch q) := by
  have hpass : ∀ l, (fetchPass l).Twin (fetchPass l) := by
    intro l
    induction l with
    | nil => exact .ret _
    | cons fd rest ih =>
      unfold fetchPass
      split
      · exact ih.bind fun _ => .ret _
      · refine .act (a := .fetchRecord _ _ _) ?_
        rintro (_ | _ | rec)
        · exact .panic
        · exact ih.bind fun _ => .ret _
        · exact ih.bind fun _ => .ret _
  refine Prog.Twin.bind ?_ ?_
  · refine Prog.Twin.map _ (Prog.Twin.forEach _ fun t => .act (a := .getTopic _) fun kt => Prog.Twin.forEach _ fun par => ?_)
    unfold fetchSetupPartition
    dsimp only
    cases kt
    · exact .ret _
    · exact .act (a := .getPartition _ _) fun _ => .ret _
  · intro fds
    refine .act (a := .now) fun t => .loop _ ?_ ?_
    · intro st
      refine (hpass _).bind ?_
      rintro ⟨fds, more⟩
      refine .of_plain ?_
      dsimp only
      split
      · trivial
      · split
        · trivial
        · refine ⟨trivial, fun t => ?_⟩
          dsimp only
          split
          · trivial
          · refine ⟨trivial, fun d => ?_⟩
            dsimp only
            split
            · trivial
            · exact ⟨trivial, fun _ => trivial⟩
    · intro fds
      refine .of_plain ?_
      split <;> trivial

theorem scanBack_twin (t : Bytes) (p : I32) (want : I64) (n : Nat) (ts : I64) : (scanBack t p want n ts).Twin (scanBack t p want n ts) := by
  induction n generalizing ts with
  | zero => exact .ret _
  | succ n ih =>
    refine .act (a := .recordAt _ _ _) ?_
    rintro (_ | rec)
    · exact .panic
    · show Prog.Twin (if rec.timestamp.toInt < want.toInt then _ else _) (if rec.timestamp.toInt < want.toInt then _ else _)
      split
      · exact .ret _
      · exact ih _

theorem listOffsetsFound_twin (t : Bytes) (par : ListOffsetsPartition) : (listOffsetsFound t par).Twin (listOffsetsFound t par) := by
  unfold listOffsetsFound
  dsimp only
  split
  · exact .act (a := .now) fun _ => .act (a := .numRecords _ _) fun _ => .ret _
  · split
    · refine Prog.Twin.act_plain (a := .numRecords _ _) trivial fun n => ?_
      split
      · exact .ret _
      · refine .act (a := .recordAt _ _ _) ?_
        rintro (_ | rec)
        · exact .panic
        · exact .ret _
    · exact .act (a := .numRecords _ _) fun n => Prog.Twin.map _ (scanBack_twin ..)

theorem listOffsets_twin (q : ListOffsetsRequest) : (listOffsets q).Twin (listOffsets q) := by
  refine Prog.Twin.map _ (Prog.Twin.forEach _ fun t => .act_plain (a := .getTopic _) trivial fun kt => Prog.Twin.map _ (Prog.Twin.forEach _ fun par => ?_))
  unfold listOffsetsPartition
  dsimp only
  split
  · refine .act_plain (a := .getPartition _ _) trivial fun kp => ?_
    split
    · exact listOffsetsFound_twin ..
    · exact .ret _
  · exact .ret _

theorem makeMemberAssignment_plain : makeMemberAssignment.Only Act.Plain := by
  refine ⟨trivial, fun names => Prog.Only.bind (Prog.Only.forEach _ fun name => ⟨trivial, fun _ => trivial⟩) ?_⟩
  intro mpas
  split <;> trivial

theorem offsetFetch_plain (q : OffsetFetchRequest) : (offsetFetch q).Only Act.Plain := by
  have h1 : ∀ name l data, (offsetFetchPartitions name l data).Only Act.Plain := by
    intro name l
    induction l with
    | nil => intro data; trivial
    | cons pi l ih => intro data; exact ⟨trivial, fun _ => ih _⟩
  have h2 : ∀ l data, (offsetFetchTopics l data).Only Act.Plain := by
    intro l
    induction l with
    | nil => intro data; trivial
    | cons rt l ih =>
      intro data
      refine ⟨trivial, fun kt => ?_⟩
      dsimp only
      split
      · exact (h1 _ _ _).bind fun _ => ih _
      · exact ih _
  refine (h2 _ _).bind fun data => ⟨trivial, fun names => Prog.Only.map _ (Prog.Only.forEach _ fun name => Prog.Only.map _ (Prog.Only.forEach _ fun kp => ?_))⟩
  exact ⟨trivial, fun _ => ⟨trivial, fun _ => trivial⟩⟩

theorem offsetCommit_plain (q : CommitRequest) : (offsetCommit q).Only Act.Plain := by
  refine Prog.Only.map _ (Prog.Only.forEach _ fun t => ⟨trivial, fun kt => Prog.Only.map _ (Prog.Only.forEach _ fun par => ?_)⟩)
  unfold commitPartition
  split
  · refine ⟨trivial, fun kp => ?_⟩
    dsimp only
    split
    · exact ⟨trivial, fun _ => trivial⟩
    · trivial
  · trivial

theorem handler_twin (sv : Server) (api : Api) (r : Reader) : (api.handler sv r).Twin (api.handler sv r) := by
  cases api
  case offsetFetch => exact Prog.Twin.withRequest _ fun _ => .of_plain ((offsetFetch_plain _).map _)
  case offsetCommit => exact Prog.Twin.withRequest _ fun _ => .of_plain ((offsetCommit_plain _).map _)
  case metadata => exact Prog.Twin.withRequest _ fun _ => .ret _
  case findCoordinator => exact Prog.Twin.withRequest _ fun _ => .ret _
  case joinGroup => exact Prog.Twin.withRequest _ fun _ => .ret _
  case syncGroup =>
    refine Prog.Twin.withRequest _ fun v => .of_plain ?_
    dsimp only
    split
    · trivial
    · exact makeMemberAssignment_plain.map _
  case leaveGroup => exact Prog.Twin.withRequest _ fun _ => .ret _
  case apiVersions => exact .act (a := .orderInt _) fun _ => .ret _
  case heartbeat => exact Prog.Twin.withRequest _ fun _ => .ret _
  case listOffsets => exact Prog.Twin.withRequest _ fun _ => (listOffsets_twin _).map _
  case fetch => exact Prog.Twin.withRequest _ fun _ => (fetch_twin _).map _

theorem Act.plain_of_socket {a : Act} (h : a.socket = true) : a.Plain := by cases a <;> first | trivial | cases h

theorem finish_plain (n : Nat) (c : I32) (h : HRes) : (finish n c h).Only Act.Plain := by
  have hf : sendFailed.Only Act.Plain := ⟨trivial, fun _ => trivial⟩
  unfold finish
  split
  · trivial
  · split
    · trivial
    · split
      · trivial
      · refine ⟨trivial, fun ok1 => ?_⟩
        dsimp only
        split
        · refine ⟨trivial, fun ok2 => ?_⟩
          dsimp only
          split
          · refine ⟨trivial, fun ok3 => ?_⟩
            dsimp only
            split
            · trivial
            · exact hf
          · exact hf
        · exact hf

theorem dispatcher_twin (sv : Server) (r : Reader) (n : Nat) : (dispatcher sv r n).Twin (dispatcher sv r n) := by
  unfold dispatcher
  split
  · exact .ret _
  · exact .panic
  · dsimp only
    split
    · exact .ret _
    · exact .panic
    · split
      · exact .ret _
      · exact (handler_twin sv _ _).bind fun h => .of_plain (finish_plain ..)

/-- A connection behaves the same whether records have headers or not. -/
theorem handle_twin (sv : Server) : (handle sv).Twin (handle sv) := by
  refine .loop _ (fun inbound => ?_) fun _ => .ret _
  unfold handleBody
  split
  · exact .panic
  · refine .of_plain ⟨trivial, fun d => ?_⟩
    dsimp only
    split
    · exact ⟨trivial, fun _ => trivial⟩
    · refine ⟨trivial, ?_⟩
      rintro (b | _ | _ | _)
      · exact ⟨trivial, fun _ => trivial⟩
      · trivial
      · trivial
      · trivial
  · refine .act (a := .reqBegin _) fun _ => (dispatcher_twin sv _ _).bind fun res => .of_plain ⟨trivial, fun _ => ?_⟩
    cases res <;> trivial

/-! ### The mock -/

/-- The call, without headers. -/
def Call.bare : Call → Call
  | .extendedPost t p k v _ ts => .extendedPost t p k v [] ts
  | c => c

/-- What happened in a step, without headers. -/
def SEv.bare : SEv → SEv
  | .life (.api i c) => .life (.api i c.bare)
  | .conn c a r => .conn c a.plain (a.bareResp r)
  | .call i a r => .call i a.plain (a.bareResp r)
  | e => e

def ApiPc.isCall : ApiPc → Bool
  | .call _ => true
  | _ => false

inductive ApiPc.Twin : ApiPc → ApiPc → Prop where
  | same (pc : ApiPc) (h : pc.isCall = false) : Twin pc pc
  | call {p q : Prog Unit} (h : p.Twin q) : Twin (.call p) (.call q)

inductive ConnPc.Twin : ConnPc → ConnPc → Prop where
  | body {p q : Prog Unit} (h : p.Twin q) : Twin (.body p) (.body q)
  | oc (k : OcPc) : Twin (.oc k) (.oc k)
  | ended : Twin .ended .ended

theorem Call.twin (c : Call) : c.entry.Twin c.bare.entry := by
  cases c
  case start => exact .same _ rfl
  case requestStop => exact .same _ rfl
  case waitForTermination => exact .same _ rfl
  case restart => exact .same _ rfl
  case finishRequests => exact .same _ rfl
  case simplePost t p k v =>
    exact .call (.act (a := .createTopic _) fun _ => .act (a := .createPartition _ _) fun _ => .act (a := .now) fun _ => .act (a := .post _ _ _) fun _ => .ret _)
  case extendedPost t p k v hs ts =>
    exact .call (.act (a := .createTopic _) fun _ => .act (a := .createPartition _ _) fun _ => .act (a := .orderHeaders _) fun _ => .act (a := .post _ _ _) fun _ => .ret _)
  case createPartitionTopics p ts =>
    refine .call (.of_plain ?_)
    induction ts with
    | nil => trivial
    | cons t ts ih => exact ⟨trivial, fun _ => ⟨trivial, fun _ => ih⟩⟩
  case setConsumerGroupOffset t p g o =>
    refine .call (.of_plain ⟨trivial, fun kt => ?_⟩)
    dsimp only
    split
    · refine ⟨trivial, fun kp => ?_⟩
      dsimp only
      split
      · exact ⟨trivial, fun _ => trivial⟩
      · trivial
    · trivial

/-- The state with the headers taken off the records, and with these callers and connections. -/
def Sys.bareWith (s : Sys) (A : Nat → ApiPc) (C : List ConnG) : Sys := { s with ds := s.ds.bare, api := A, conns := C }

def TwinApi (api A : Nat → ApiPc) : Prop := ∀ i, (api i).Twin (A i)

def TwinConns (conns C : List ConnG) : Prop := C.length = conns.length ∧ ∀ (c : Nat) (k : ConnG), conns[c]? = some k → ∃ pc, C[c]? = some ⟨k.gen, k.num, k.ctx, pc⟩ ∧ k.pc.Twin pc

theorem TwinApi.set {api A : Nat → ApiPc} (h : TwinApi api A) (i : Nat) {pc pc' : ApiPc} (hp : pc.Twin pc') :
    TwinApi (fun j => if j = i then pc else api j) (fun j => if j = i then pc' else A j) := by
  intro j
  dsimp only
  split
  · exact hp
  · exact h j

theorem TwinConns.set {conns C : List ConnG} (h : TwinConns conns C) {c : Nat} {k : ConnG} (hk : conns[c]? = some k) {pc pc' : ConnPc} (hp : pc.Twin pc') :
    TwinConns (conns.set c { k with pc := pc }) (C.set c ⟨k.gen, k.num, k.ctx, pc'⟩) := by
  refine ⟨by simp [h.1], fun d l hl => ?_⟩
  by_cases e : c = d
  · subst e
    have hlt := (List.getElem?_eq_some_iff.1 hk).1
    rw [List.getElem?_set_self hlt] at hl
    cases hl
    exact ⟨pc', List.getElem?_set_self (h.1 ▸ hlt), hp⟩
  · rw [List.getElem?_set_ne e] at hl
    rw [List.getElem?_set_ne e]
    exact h.2 d l hl

theorem TwinConns.add {conns C : List ConnG} (h : TwinConns conns C) (k : ConnG) {pc : ConnPc} (hp : k.pc.Twin pc) :
    TwinConns (conns ++ [k]) (C ++ [⟨k.gen, k.num, k.ctx, pc⟩]) := by
  refine ⟨by simp [h.1], fun d l hl => ?_⟩
  by_cases hd : d < conns.length
  · rw [List.getElem?_append_left hd] at hl
    rw [List.getElem?_append_left (h.1 ▸ hd)]
    exact h.2 d l hl
  · have hd' : conns.length ≤ d := Nat.le_of_not_lt hd
    rw [List.getElem?_append_right hd'] at hl
    rw [List.getElem?_append_right (h.1 ▸ hd'), h.1]
    rcases hn : d - conns.length with _ | n
    · rw [hn] at hl; cases hl; exact ⟨pc, rfl, hp⟩
    · rw [hn] at hl; cases hl

theorem ApiPc.Twin.wakeWg {pc pc' : ApiPc} (h : pc.Twin pc') : pc.wakeWg.Twin pc'.wakeWg := by
  cases h with
  | same _ h =>
    refine .same _ ?_
    unfold ApiPc.wakeWg
    split
    · rfl
    · exact h
  | call h => exact .call h

theorem ApiPc.Twin.wakeInit {pc pc' : ApiPc} (h : pc.Twin pc') : pc.wakeInit.Twin pc'.wakeInit := by
  cases h with
  | same _ h =>
    refine .same _ ?_
    unfold ApiPc.wakeInit
    split
    · rfl
    · rfl
    · exact h
  | call h => exact .call h

section
variable {s t : Sys} {A : Nat → ApiPc} {C : List ConnG}

/-- The steps of the callers. -/
theorem apiStep_bare {i : Nat} {c : Call} (h : s.apiStep i c = .ok t) (hA : TwinApi s.api A) :
    ∃ A', (s.bareWith A C).apiStep i c.bare = .ok (t.bareWith A' C) ∧ TwinApi t.api A' ∧ t.conns = s.conns := by
  have key : ∀ (s1 : Sys) (pc pc' : ApiPc), s1.api = s.api → s1.conns = s.conns → t = s1.setApi i pc →
      (s.bareWith A C).apiStep i c.bare = .ok ((s1.bareWith A C).setApi i pc') → pc.Twin pc' →
      ∃ A', (s.bareWith A C).apiStep i c.bare = .ok (t.bareWith A' C) ∧ TwinApi t.api A' ∧ t.conns = s.conns := by
    rintro s1 pc pc' h1 h2 rfl h3 hp
    exact ⟨_, h3, by rw [show (s1.setApi i pc).api = fun j => if j = i then pc else s.api j by rw [← h1]; rfl]; exact hA.set i hp, h2⟩
  have hsame : ∀ pc, s.api i = pc → (pc.isCall = false) → A i = pc := by
    intro pc h1 h2
    have := hA i
    rw [h1] at this
    generalize A i = q at this
    cases this with
    | same => rfl
    | call => cases h2
  have hs : ∀ pc : ApiPc, (pc.isCall = false) → pc.Twin pc := fun pc h => .same pc h
  have hstep : ∀ pc, A i = pc → (s.bareWith A C).apiStep i c.bare = match pc with
      | .idle => .ok ((s.bareWith A C).setApi i c.bare.entry)
      | .panicked _ => .ok ((s.bareWith A C).setApi i .idle)
      | .start k r => (s.bareWith A C).startStep i r k
      | .stop k b => (s.bareWith A C).stopStep i b k
      | .wait k r => (s.bareWith A C).waitStep i s.wg k (fun k => .wait k r) (.stop .swap (if r then .restartWait else .wait))
      | .restartInit k => (s.bareWith A C).waitStep i s.init k .restartInit .idle
      | .finish => match s.ctx with
        | some c => .ok (({ s.bareWith A C with done := c :: s.done } : Sys).setApi i .idle)
        | none => .ok ((s.bareWith A C).setApi i (.panicked .nilCancel))
      | .call (.ret ()) => .ok ((s.bareWith A C).setApi i .idle)
      | .call .panic => .crash .handler
      | .call _ => .blocked := by
    rintro pc rfl
    rfl
  have hwait : ∀ (n : Nat) (k : WaitPc) (at' : WaitPc → ApiPc) (after : ApiPc), (∀ k, (at' k).isCall = false) → after.isCall = false →
      s.waitStep i n k at' after = .ok t → (s.bareWith A C).apiStep i c.bare = (s.bareWith A C).waitStep i n k at' after →
      ∃ A', (s.bareWith A C).apiStep i c.bare = .ok (t.bareWith A' C) ∧ TwinApi t.api A' ∧ t.conns = s.conns := by
    intro n k at' after h1 h2 h3 h4
    unfold Sys.waitStep at h3 h4
    cases k with
    | enter =>
      cases h3
      refine key s _ _ rfl rfl rfl h4 (hs _ (?_))
      split
      · exact h2
      · exact h1 _
    | asleep => cases h3
    | woken =>
      cases h3
      refine key s _ _ rfl rfl rfl h4 (hs _ (?_))
      split
      · exact h2
      · rfl
  have hlock : ∀ (x : Holder) (pc : ApiPc), (pc.isCall = false) → s.lockMu x (fun s => s.setApi i pc) = .ok t →
      (s.bareWith A C).apiStep i c.bare = (s.bareWith A C).lockMu x (fun s => s.setApi i pc) →
      ∃ A', (s.bareWith A C).apiStep i c.bare = .ok (t.bareWith A' C) ∧ TwinApi t.api A' ∧ t.conns = s.conns := by
    intro x pc h1 h2 h3
    unfold Sys.lockMu at h2 h3
    by_cases hm : s.mu = none
    · rw [if_pos hm] at h2
      rw [if_pos (show (s.bareWith A C).mu = none from hm)] at h3
      cases h2
      exact key { s with mu := some x } _ _ rfl rfl rfl h3 (hs _ (h1))
    · rw [if_neg hm] at h2; cases h2
  have hnext : ∀ b : StopBy, b.next.isCall = false := by intro b; cases b <;> rfl
  have hctx : ∀ (o : Option Nat) (f : Nat → Sys → Sys) (pc : ApiPc), pc.isCall = false → (∀ x, f x (s.bareWith A C) = (f x s).bareWith A C ∧ (f x s).api = s.api ∧ (f x s).conns = s.conns) →
      (match o with | some x => .ok ((f x s).setApi i pc) | none => .ok (s.setApi i (.panicked .nilCancel))) = Out.ok t →
      (s.bareWith A C).apiStep i c.bare = (match o with | some x => .ok ((f x (s.bareWith A C)).setApi i pc) | none => .ok ((s.bareWith A C).setApi i (.panicked .nilCancel))) →
      ∃ A', (s.bareWith A C).apiStep i c.bare = .ok (t.bareWith A' C) ∧ TwinApi t.api A' ∧ t.conns = s.conns := by
    intro o f pc h1 h2 h3 h4
    cases o with
    | some x =>
      cases h3
      refine key (f x s) _ _ (h2 x).2.1 (h2 x).2.2 rfl ?_ (hs _ h1)
      rw [h4, ← (h2 x).1]
    | none =>
      cases h3
      exact key s _ _ rfl rfl rfl h4 (hs _ rfl)
  cases hp : s.api i with
  | idle =>
    simp only [Sys.apiStep, hp] at h
    cases h
    exact key s _ _ rfl rfl rfl (hstep _ (hsame _ hp rfl)) c.twin
  | panicked w =>
    simp only [Sys.apiStep, hp] at h
    cases h
    exact key s _ _ rfl rfl rfl (hstep _ (hsame _ hp rfl)) (hs _ (rfl))
  | start k r =>
    simp only [Sys.apiStep, hp] at h
    have h2 := hstep _ (hsame _ hp rfl)
    cases k with
    | lock => exact hlock _ _ rfl h h2
    | swap =>
      simp only [Sys.startStep] at h h2
      by_cases hs' : s.started = true
      · rw [if_pos hs'] at h
        rw [if_pos (show (s.bareWith A C).started = true from hs')] at h2
        cases h
        exact key s _ _ rfl rfl rfl h2 (hs _ (rfl))
      · rw [if_neg hs'] at h
        rw [if_neg (show ¬ (s.bareWith A C).started = true from hs')] at h2
        cases h
        exact key { s with started := true } _ _ rfl rfl rfl h2 (hs _ (rfl))
    | panicUnlock => cases h; exact key { s with mu := none } _ _ rfl rfl rfl h2 (hs _ (rfl))
    | reset => cases h; exact key { s with listener := none, clients := [] } _ _ rfl rfl rfl h2 (hs _ (rfl))
    | unstop => cases h; exact key { s with stopped := false } _ _ rfl rfl rfl h2 (hs _ (rfl))
    | derive => cases h; exact key { s with ctx := some s.runs.length } _ _ rfl rfl rfl h2 (hs _ (rfl))
    | addWg => cases h; exact key { s with wg := s.wg + 1 } _ _ rfl rfl rfl h2 (hs _ (rfl))
    | addInit => cases h; exact key { s with init := s.init + 1 } _ _ rfl rfl rfl h2 (hs _ (rfl))
    | spawn => cases h; exact key { s with runs := s.runs ++ [⟨.listen, 0⟩] } _ _ rfl rfl rfl h2 (hs _ (rfl))
    | unlock =>
      cases h
      refine key { s with mu := none } _ _ rfl rfl rfl h2 (hs _ (?_))
      split <;> rfl
  | stop k b =>
    simp only [Sys.apiStep, hp] at h
    have h2 := hstep _ (hsame _ hp rfl)
    cases k with
    | swap =>
      cases h
      refine key { s with stopped := true } _ _ rfl rfl rfl h2 (hs _ (?_))
      split
      · exact hnext b
      · rfl
    | load =>
      cases h
      refine key s _ _ rfl rfl rfl h2 (hs _ (?_))
      split
      · rfl
      · exact hnext b
    | init k => exact hwait s.init k (fun k => .stop (.init k) b) (.stop .lock b) (fun _ => rfl) rfl h h2
    | lock => exact hlock _ _ rfl h h2
    | close =>
      simp only [Sys.stopStep] at h h2
      cases hl : s.listener with
      | some g =>
        rw [hl] at h
        cases h
        refine key { s with closes := g :: s.closes, listener := none } _ _ rfl rfl rfl ?_ (hs _ (rfl))
        rw [h2, show (s.bareWith A C).listener = some g from hl]
        rfl
      | none =>
        rw [hl] at h
        cases h
        refine key s _ _ rfl rfl rfl ?_ (hs _ (rfl))
        rw [h2, show (s.bareWith A C).listener = none from hl]
    | unlock => cases h; exact key { s with mu := none } _ _ rfl rfl rfl h2 (hs _ (rfl))
    | cancel => exact hctx s.ctx (fun x s => { s with cancels := x :: s.cancels, done := x :: s.done }) _ (hnext b) (fun _ => ⟨rfl, rfl, rfl⟩) h h2
  | wait k r =>
    simp only [Sys.apiStep, hp] at h
    exact hwait _ k _ _ (fun _ => rfl) rfl h (hstep _ (hsame _ hp rfl))
  | restartInit k =>
    simp only [Sys.apiStep, hp] at h
    exact hwait _ k _ _ (fun _ => rfl) rfl h (hstep _ (hsame _ hp rfl))
  | finish =>
    simp only [Sys.apiStep, hp] at h
    exact hctx s.ctx (fun x s => { s with done := x :: s.done }) .idle rfl (fun _ => ⟨rfl, rfl, rfl⟩) h (hstep _ (hsame _ hp rfl))
  | call p =>
    simp only [Sys.apiStep, hp] at h
    cases p with
    | ret u =>
      cases h
      have := hA i
      rw [hp] at this
      generalize hq : A i = q at this
      cases this with
      | same _ h => cases h
      | call h =>
        cases h
        exact key s _ _ rfl rfl rfl (hstep _ hq) (hs _ rfl)
    | panic => cases h
    | act => cases h
    | loop => cases h

theorem wgDone_bare {u : Sys} (h : s.wgDone = .ok u) (hA : TwinApi s.api A) :
    ∃ A', (s.bareWith A C).wgDone = .ok (u.bareWith A' C) ∧ TwinApi u.api A' ∧ u.conns = s.conns ∧ u.runs = s.runs := by
  have aux : ∀ n, (match n with | 0 => .crash .negative | 1 => .ok { s with wg := 0, api := fun j => (s.api j).wakeWg } | n + 2 => .ok { s with wg := n + 1 }) = Out.ok u →
      ∃ A', (match n with | 0 => .crash .negative | 1 => .ok { s.bareWith A C with wg := 0, api := fun j => (A j).wakeWg } | n + 2 => .ok { s.bareWith A C with wg := n + 1 }) =
        Out.ok (u.bareWith A' C) ∧ TwinApi u.api A' ∧ u.conns = s.conns ∧ u.runs = s.runs := by
    intro n h
    match n, h with
    | 0, h => cases h
    | 1, h => cases h; exact ⟨_, rfl, fun j => (hA j).wakeWg, rfl, rfl⟩
    | n + 2, h => cases h; exact ⟨_, rfl, hA, rfl, rfl⟩
  exact aux s.wg h

theorem initDone_bare {u : Sys} (h : s.initDone = .ok u) (hA : TwinApi s.api A) :
    ∃ A', (s.bareWith A C).initDone = .ok (u.bareWith A' C) ∧ TwinApi u.api A' ∧ u.conns = s.conns ∧ u.runs = s.runs := by
  have aux : ∀ n, (match n with | 0 => .crash .negative | 1 => .ok { s with init := 0, api := fun j => (s.api j).wakeInit } | n + 2 => .ok { s with init := n + 1 }) = Out.ok u →
      ∃ A', (match n with | 0 => .crash .negative | 1 => .ok { s.bareWith A C with init := 0, api := fun j => (A j).wakeInit } | n + 2 => .ok { s.bareWith A C with init := n + 1 }) =
        Out.ok (u.bareWith A' C) ∧ TwinApi u.api A' ∧ u.conns = s.conns ∧ u.runs = s.runs := by
    intro n h
    match n, h with
    | 0, h => cases h
    | 1, h => cases h; exact ⟨_, rfl, fun j => (hA j).wakeInit, rfl, rfl⟩
    | n + 2, h => cases h; exact ⟨_, rfl, hA, rfl, rfl⟩
  exact aux s.init h

theorem activeDone_bare {u : Sys} (h : s.activeDone = .ok u) :
    (s.bareWith A C).activeDone = .ok (u.bareWith A C) ∧ u.api = s.api ∧ u.conns = s.conns ∧ u.runs = s.runs := by
  have aux : ∀ n, (match n with | 0 => .crash .negative | n + 1 => .ok { s with active := n }) = Out.ok u →
      (match n with | 0 => .crash .negative | n + 1 => .ok { s.bareWith A C with active := n }) = Out.ok (u.bareWith A C) ∧ u.api = s.api ∧ u.conns = s.conns ∧ u.runs = s.runs := by
    intro n h
    match n, h with
    | 0, h => cases h
    | n + 1, h => cases h; exact ⟨rfl, rfl, rfl, rfl⟩
  exact aux s.active h

theorem lockMu_bare {x : Holder} {f : Sys → Sys} (h : s.lockMu x f = .ok t) (hf : ∀ u, f (u.bareWith A C) = (f u).bareWith A C ∧ (f u).api = u.api ∧ (f u).conns = u.conns) :
    (s.bareWith A C).lockMu x f = .ok (t.bareWith A C) ∧ t.api = s.api ∧ t.conns = s.conns := by
  unfold Sys.lockMu at h
  by_cases hm : s.mu = none
  · rw [if_pos hm] at h
    cases h
    refine ⟨?_, (hf _).2⟩
    unfold Sys.lockMu
    rw [if_pos (show (s.bareWith A C).mu = none from hm), ← (hf _).1]
    rfl
  · rw [if_neg hm] at h; cases h

/-- The steps of the accept loops. -/
theorem runStep_bare {g : Nat} {ok : Bool} (h : s.runStep g ok = .ok t) (hA : TwinApi s.api A) (hC : TwinConns s.conns C) :
    ∃ A' C', (s.bareWith A C).runStep g ok = .ok (t.bareWith A' C') ∧ TwinApi t.api A' ∧ TwinConns t.conns C' := by
  cases hr : s.runs[g]? with
  | none => simp only [Sys.runStep, hr] at h; cases h
  | some r =>
    obtain ⟨pc, cxn⟩ := r
    have hr' : (s.bareWith A C).runs[g]? = some ⟨pc, cxn⟩ := hr
    have key : t.api = s.api ∧ t.conns = s.conns → (s.bareWith A C).runStep g ok = .ok (t.bareWith A C) →
        ∃ A' C', (s.bareWith A C).runStep g ok = .ok (t.bareWith A' C') ∧ TwinApi t.api A' ∧ TwinConns t.conns C' := by
      rintro ⟨h1, h2⟩ h3
      exact ⟨A, C, h3, h1 ▸ hA, h2 ▸ hC⟩
    cases pc <;> simp only [Sys.runStep, hr] at h <;> simp only [Sys.runStep, hr'] at key ⊢
    case listen =>
      split at h
      · next hok => cases h; exact key ⟨rfl, rfl⟩ (by rw [if_pos hok]; rfl)
      · cases h
    case setListener => cases h; exact key ⟨rfl, rfl⟩ rfl
    case initDone =>
      cases hd : s.initDone with
      | ok u =>
        rw [hd] at h
        cases h
        obtain ⟨A', h1, h2, h3, h4⟩ := initDone_bare (C := C) hd hA
        refine ⟨A', C, ?_, h2, h3 ▸ hC⟩
        rw [h1]; rfl
      | blocked => rw [hd] at h; cases h
      | crash c => rw [hd] at h; cases h
    case accept =>
      by_cases hc : s.closes.contains g = true
      · rw [if_pos hc] at h
        cases h
        exact key ⟨rfl, rfl⟩ (by rw [if_pos (show (s.bareWith A C).closes.contains g = true from hc)]; rfl)
      · rw [if_neg hc] at h
        split at h
        · next hok => cases h; exact key ⟨rfl, rfl⟩ (by rw [if_neg (show ¬ (s.bareWith A C).closes.contains g = true from hc), if_pos hok]; rfl)
        · cases h
    case select => cases h; exact key ⟨rfl, rfl⟩ rfl
    case lock =>
      obtain ⟨h1, h2⟩ := lockMu_bare (A := A) (C := C) h fun u => ⟨rfl, rfl, rfl⟩
      exact key h2 h1
    case register =>
      cases h
      refine ⟨A, C ++ [⟨g, cxn + 1, s.ctx.getD 0, .body (handle s.sv)⟩], ?_, hA, hC.add ⟨g, cxn + 1, s.ctx.getD 0, .body (handle s.sv)⟩ (.body (handle_twin _))⟩
      show Out.ok _ = Out.ok _
      congr 1
      unfold Sys.bareWith
      dsimp only
      rw [hC.1]
    case addActive => cases h; exact key ⟨rfl, rfl⟩ rfl
    case addWg => cases h; exact key ⟨rfl, rfl⟩ rfl
    case unlock => cases h; exact key ⟨rfl, rfl⟩ rfl
    case waitActive =>
      by_cases hc : s.active = 0
      · rw [if_pos hc] at h
        cases h
        exact key ⟨rfl, rfl⟩ (by rw [if_pos (show (s.bareWith A C).active = 0 from hc)]; rfl)
      · rw [if_neg hc] at h; cases h
    case storeStarted => cases h; exact key ⟨rfl, rfl⟩ rfl
    case wgDone =>
      cases hd : s.wgDone with
      | ok u =>
        rw [hd] at h
        cases h
        obtain ⟨A', h1, h2, h3, h4⟩ := wgDone_bare (C := C) hd hA
        refine ⟨A', C, ?_, h2, h3 ▸ hC⟩
        rw [h1]; rfl
      | blocked => rw [hd] at h; cases h
      | crash c => rw [hd] at h; cases h
    case ended => cases h

/-- The steps of the close callbacks. -/
theorem connStep_bare {c : Nat} (h : s.connStep c = .ok t) (hA : TwinApi s.api A) (hC : TwinConns s.conns C) :
    ∃ A' C', (s.bareWith A C).connStep c = .ok (t.bareWith A' C') ∧ TwinApi t.api A' ∧ TwinConns t.conns C' := by
  cases hk : s.conns[c]? with
  | none => simp only [Sys.connStep, hk] at h; cases h
  | some k =>
    obtain ⟨gen, num, ctx, pc⟩ := k
    obtain ⟨pc', hk', hp⟩ := hC.2 c _ hk
    have hk' : (s.bareWith A C).conns[c]? = some ⟨gen, num, ctx, pc'⟩ := hk'
    have hset : ∀ {q q' : ConnPc}, q.Twin q' → TwinConns (s.conns.set c ⟨gen, num, ctx, q⟩) (C.set c ⟨gen, num, ctx, q'⟩) := fun h => hC.set hk h
    simp only [Sys.connStep, hk] at h
    simp only [Sys.connStep, hk']
    cases hp with
    | @body p q hp =>
      cases hp with
      | ret v => cases h; exact ⟨A, _, rfl, hA, hset (.oc .lock)⟩
      | panic => cases h
      | act => cases h
      | loop => cases h
    | ended => cases h
    | oc k =>
      cases k with
      | lock =>
        simp only [Sys.lockMu] at h ⊢
        by_cases hm : s.mu = none
        · rw [if_pos hm] at h
          cases h
          exact ⟨A, _, by rw [if_pos (show (s.bareWith A C).mu = none from hm)]; rfl, hA, hset (.oc .delete)⟩
        · rw [if_neg hm] at h; cases h
      | delete =>
        cases hr : s.runs[gen]? with
        | none => rw [hr] at h; cases h
        | some r =>
          rw [hr] at h
          cases h
          refine ⟨A, _, ?_, hA, hset (.oc .active)⟩
          rw [show (s.bareWith A C).runs[gen]? = some r from hr]
          rfl
      | active =>
        cases hd : s.activeDone with
        | ok u =>
          rw [hd] at h
          cases h
          obtain ⟨h1, h2, h3, h4⟩ := activeDone_bare (A := A) (C := C) hd
          refine ⟨A, C.set c ⟨gen, num, ctx, .oc .wg⟩, ?_, ?_, ?_⟩
          · rw [h1]; rfl
          · show TwinApi u.api A
            rw [h2]; exact hA
          · show TwinConns (u.conns.set c _) _
            rw [h3]; exact hset (.oc .wg)
        | blocked => rw [hd] at h; cases h
        | crash c => rw [hd] at h; cases h
      | wg =>
        cases hd : s.wgDone with
        | ok u =>
          rw [hd] at h
          cases h
          obtain ⟨A', h1, h2, h3, h4⟩ := wgDone_bare (C := C) hd hA
          refine ⟨A', C.set c ⟨gen, num, ctx, .oc .unlock⟩, ?_, h2, ?_⟩
          · rw [h1]; rfl
          · show TwinConns (u.conns.set c _) _
            rw [h3]; exact hset (.oc .unlock)
        | blocked => rw [hd] at h; cases h
        | crash c => rw [hd] at h; cases h
      | unlock => cases h; exact ⟨A, _, rfl, hA, hset .ended⟩

theorem bareWith_view (ctx : Nat) : (s.bareWith A C).view ctx = (s.view ctx).bare := rfl

/-- Every step is possible without headers. -/
theorem step_bare {e : SEv} (h : Sys.Step s e t) (hA : TwinApi s.api A) (hC : TwinConns s.conns C) :
    ∃ A' C', Sys.Step (s.bareWith A C) e.bare (t.bareWith A' C') ∧ TwinApi t.api A' ∧ TwinConns t.conns C' := by
  cases h with
  | @life _ x h =>
    cases x with
    | api i c =>
      obtain ⟨A', h1, h2, h3⟩ := apiStep_bare (C := C) h hA
      exact ⟨A', C, .life h1, h2, h3 ▸ hC⟩
    | run g ok =>
      obtain ⟨A', C', h1, h2⟩ := runStep_bare h hA hC
      exact ⟨A', C', .life h1, h2⟩
    | conn c =>
      obtain ⟨A', C', h1, h2⟩ := connStep_bare h hA hC
      exact ⟨A', C', .life h1, h2⟩
    | parentCancel => cases h; exact ⟨A, C, .life rfl, hA, hC⟩
  | @conn c k a f r w hc hp ha =>
    obtain ⟨pc, hk, ht⟩ := hC.2 c k hc
    rw [hp] at ht
    cases ht with
    | @body p q ht =>
      cases ht with
      | @act _ a _ g ht =>
        refine ⟨A, C.set c ⟨k.gen, k.num, k.ctx, .body (g (a.bareResp r))⟩, ?_, hA, hC.set hc (.body (ht r))⟩
        exact Sys.Step.conn (s := s.bareWith A C) (k := ⟨k.gen, k.num, k.ctx, .body (.act a.plain g)⟩) hk rfl (Act.step_bare ha)
  | @unroll c k σ β x body f hc hp =>
    obtain ⟨pc, hk, ht⟩ := hC.2 c k hc
    rw [hp] at ht
    cases ht with
    | @body p q ht =>
      cases ht with
      | @loop _ _ _ _ _ b' _ k' hb hf =>
        refine ⟨A, C.set c ⟨k.gen, k.num, k.ctx, .body (Prog.unroll x b' k')⟩, ?_, hA, hC.set hc (.body (.unroll hb hf))⟩
        exact Sys.Step.unroll (s := s.bareWith A C) (k := ⟨k.gen, k.num, k.ctx, .body (.loop x b' k')⟩) hk rfl
  | @call i a f r w hp ha =>
    have ht := hA i
    rw [hp] at ht
    generalize hq : A i = q at ht
    cases ht with
    | same _ h => cases h
    | @call p q ht =>
      cases ht with
      | @act _ a _ g ht =>
        exact ⟨_, C, Sys.Step.call (s := s.bareWith A C) hq (Act.step_bare ha), hA.set i (.call (ht r)), hC⟩
  | tick d => exact ⟨A, C, .tick d, hA, hC⟩

end

/-- Every run of the mock is possible without headers: the same calls with the headers left out, the same steps of all goroutines, the same bytes read and written. -/
theorem run_bare {s t : Sys} {tr : List SEv} (h : Sys.Run s tr t) {A : Nat → ApiPc} {C : List ConnG} (hA : TwinApi s.api A) (hC : TwinConns s.conns C) :
    ∃ A' C', Sys.Run (s.bareWith A C) (tr.map SEv.bare) (t.bareWith A' C') := by
  induction h generalizing A C with
  | nil => exact ⟨A, C, .nil _⟩
  | cons h _ ih =>
    obtain ⟨A1, C1, h1, h2, h3⟩ := step_bare h hA hC
    obtain ⟨A2, C2, h4⟩ := ih h2 h3
    exact ⟨A2, C2, .cons h1 h4⟩

theorem new_run_bare {sv : Server} {clock : Int} {t : Sys} {tr : List SEv} (h : Sys.Run (Sys.new sv clock) tr t) :
    ∃ t', Sys.Run (Sys.new sv clock) (tr.map SEv.bare) t' ∧ t'.ds = t.ds.bare := by
  obtain ⟨A, C, h1⟩ := run_bare h (A := (Sys.new sv clock).api) (C := []) (fun _ => .same _ rfl) ⟨rfl, by intro c k h; simp [Sys.new] at h⟩
  exact ⟨_, h1, rfl⟩

end KM
