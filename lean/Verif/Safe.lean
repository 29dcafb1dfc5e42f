import Verif.Only
import Verif.TestApi
/-
No goroutine ever uses a topic or partition pointer that is nil. An action on a partition has a step only where the partition exists
(`Act.step`); here it is proved that every program reaches such an action only in worlds where it does, whatever the other goroutines
have done since the pointer was obtained.
-/
namespace KM

/-- A topic `(t, none)` or a partition `(t, some p)`. -/
abbrev Loc := Bytes × Option I32

/-- The topic or partition is in the store. -/
def World.has (w : World) : Loc → Prop
  | (t, none) => w.hasTopic t
  | (t, some p) => w.hasPartition t p

/-- The object an action dereferences, if any. -/
def Act.needs : Act → Option Loc
  | .createPartition t _ | .getPartition t _ | .rangePartitions t => some (t, none)
  | .post t p _ | .commit t p _ _ | .groupCommitted t p _ | .setOffset t p _ _ | .partInfo t p | .numRecords t p
  | .recordAt t p _ | .fetchRecord t p _ => some (t, some p)
  | .createTopic _ | .getTopic _ | .rangeTopics | .order _ | .orderInt _ | .orderHeaders _ | .now | .isDone | .sleep _ | .tick _
  | .cancel | .recv | .isStopping | .write _ | .isConnected | .close | .reqBegin _ | .reqEnd => none

/-- The objects known to exist once the action has given this result. -/
def Act.gives : (a : Act) → a.Resp → Loc → Prop
  | .createTopic t, _, x => x = (t, none)
  | .getTopic t, r, x => r = true ∧ x = (t, none)
  | .createPartition t p, _, x => x = (t, some p)
  | .getPartition t p, r, x => r = true ∧ x = (t, some p)
  | .rangeTopics, r, x => ∃ t, t ∈ r ∧ x = (t, none)
  | _, _, _ => False

theorem World.has_step {a : Act} {w w' : World} {r : a.Resp} (h : a.step w r w') {x : Loc} (hx : w.has x) : w'.has x := by
  rcases x with ⟨t, _ | p⟩
  · exact step_hasTopic h hx
  · exact step_hasPartition h hx

/-- What an action needs is enough for it to have a step. -/
theorem Act.enabled {a : Act} {w : World} (h : ∀ x, a.needs = some x → w.has x) : ∃ r w', a.step w r w' := by
  have part : ∀ {t p}, w.hasPartition t p → ∃ kp, w.ds.part? t p = some kp := fun h => Option.isSome_iff_exists.1 h
  cases a with
  | createTopic t => exact ⟨(), _, rfl⟩
  | getTopic t => exact ⟨_, _, rfl, rfl⟩
  | createPartition t p => exact ⟨(), _, h _ rfl, rfl⟩
  | getPartition t p => exact ⟨_, _, h _ rfl, rfl, rfl⟩
  | post t p r => exact ⟨(), _, h _ rfl, rfl⟩
  | commit t p g o => exact ⟨(), _, h _ rfl, rfl⟩
  | groupCommitted t p g => obtain ⟨kp, hk⟩ := part (h _ rfl); exact ⟨_, _, kp, hk, rfl, rfl⟩
  | setOffset t p g o => exact ⟨(), _, h _ rfl, rfl⟩
  | partInfo t p => obtain ⟨kp, hk⟩ := part (h _ rfl); exact ⟨_, _, kp, hk, rfl, rfl⟩
  | numRecords t p => obtain ⟨kp, hk⟩ := part (h _ rfl); exact ⟨_, _, kp, hk, rfl, rfl⟩
  | recordAt t p i => obtain ⟨kp, hk⟩ := part (h _ rfl); exact ⟨_, _, kp, hk, rfl, rfl⟩
  | fetchRecord t p i => obtain ⟨kp, hk⟩ := part (h _ rfl); exact ⟨_, _, kp, hk, rfl, rfl⟩
  | rangeTopics => exact ⟨_, _, rfl, .refl _⟩
  | rangePartitions t =>
    obtain ⟨kt, hk⟩ := Option.isSome_iff_exists.1 (h _ rfl)
    exact ⟨_, _, rfl, kt, hk, .refl _⟩
  | order ks => exact ⟨_, _, rfl, .refl _⟩
  | orderInt ks => exact ⟨_, _, rfl, .refl _⟩
  | orderHeaders hs => exact ⟨_, _, rfl, .refl _⟩
  | now => exact ⟨_, _, rfl, rfl⟩
  | isDone => exact ⟨_, _, rfl, rfl⟩
  | sleep d => exact ⟨(), _, _, Int.le_refl _, rfl⟩
  | tick d => exact ⟨(), _, rfl⟩
  | cancel => exact ⟨(), _, rfl⟩
  | recv => exact ⟨.timeout, _, rfl, fun _ h => by cases h⟩
  | isStopping => exact ⟨false, _, rfl⟩
  | write b => exact ⟨true, _, rfl⟩
  | isConnected => exact ⟨.eof, _, rfl⟩
  | close => exact ⟨(), _, rfl⟩
  | reqBegin m => exact ⟨(), _, rfl⟩
  | reqEnd => exact ⟨(), _, rfl⟩

/-- An action has a step only where the object it dereferences exists. -/
theorem Act.step_needs {a : Act} {w w' : World} {r : a.Resp} (h : a.step w r w') {x : Loc} (hx : a.needs = some x) : w.has x := by
  have part : ∀ {t p} {kp : Partition}, w.ds.part? t p = some kp → w.hasPartition t p := fun h => by
    unfold World.hasPartition; rw [h]; rfl
  cases a with
  | createPartition t p => cases hx; exact h.1
  | getPartition t p => cases hx; exact h.1
  | post t p r => cases hx; exact h.1
  | commit t p g o => cases hx; exact h.1
  | groupCommitted t p g => cases hx; obtain ⟨kp, hk, _⟩ := h; exact part hk
  | setOffset t p g o => cases hx; exact h.1
  | partInfo t p => cases hx; obtain ⟨kp, hk, _⟩ := h; exact part hk
  | numRecords t p => cases hx; obtain ⟨kp, hk, _⟩ := h; exact part hk
  | recordAt t p i => cases hx; obtain ⟨kp, hk, _⟩ := h; exact part hk
  | fetchRecord t p i => cases hx; obtain ⟨kp, hk, _⟩ := h; exact part hk
  | rangePartitions t =>
    cases hx
    obtain ⟨_, kt, hk, _⟩ := h
    show (GoMap.get w.ds t).isSome
    rw [hk]; rfl
  | _ => cases hx

theorem Act.step_gives {a : Act} {w w' : World} {r : a.Resp} (h : a.step w r w') {x : Loc} (hx : a.gives r x) : w'.has x := by
  cases a with
  | createTopic t =>
    cases hx; cases h
    show (GoMap.get (w.ds.createTopic t) t).isSome
    rw [Store.get_createTopic, if_pos rfl]; rfl
  | getTopic t =>
    obtain ⟨hr, rfl⟩ := hx
    obtain ⟨rfl, rfl⟩ := h
    exact hr
  | createPartition t p =>
    cases hx; obtain ⟨h1, rfl⟩ := h
    show (Store.part? (w.ds.createPartition t p) t p).isSome
    rw [Store.part?_createPartition _ _ _ _ _ h1, if_pos ⟨rfl, rfl⟩]; rfl
  | getPartition t p =>
    obtain ⟨hr, rfl⟩ := hx
    obtain ⟨_, rfl, rfl⟩ := h
    exact hr
  | rangeTopics =>
    obtain ⟨t, ht, rfl⟩ := hx
    obtain ⟨rfl, hp⟩ := h
    exact (GoMap.mem_keys_iff _ _).1 (hp.subset ht)
  | _ => cases hx

/-- Starting with the objects in `K` known to exist, the program dereferences only objects it knows to exist, and on returning `v`
it knows the objects in `Q v`. -/
def Prog.Ok : {α : Type} → Prog α → (Loc → Prop) → (α → Loc → Prop) → Prop
  | _, .ret v, K, Q => ∀ x, Q v x → K x
  | _, .panic, _, _ => True
  | _, .act a k, K, Q => (∀ x, a.needs = some x → K x) ∧ ∀ r, (k r).Ok (fun x => K x ∨ a.gives r x) Q
  | _, @Prog.loop _ σ β s body k, K, Q => ∃ (I : σ → Loc → Prop) (P : β → Loc → Prop), (∀ x, I s x → K x) ∧
      (∀ s, (body s).Ok (I s) (Sum.elim I P)) ∧ ∀ b, (k b).Ok (P b) Q

namespace Prog.Ok
variable {α β : Type}

theorem mono {p : Prog α} {K K' : Loc → Prop} {Q Q' : α → Loc → Prop} (hp : p.Ok K Q) (hK : ∀ x, K x → K' x)
    (hQ : ∀ v x, Q' v x → Q v x) : p.Ok K' Q' := by
  induction p generalizing K K' with
  | ret v => exact fun x hx => hK x (hp x (hQ v x hx))
  | panic => trivial
  | act a k ih => exact ⟨fun x hx => hK x (hp.1 x hx), fun r => ih r (hp.2 r) (fun x => Or.imp_left (hK x)) hQ⟩
  | loop s body k _ ih =>
    obtain ⟨I, P, h1, h2, h3⟩ := hp
    exact ⟨I, P, fun x hx => hK x (h1 x hx), h2, fun b => ih b (h3 b) (fun _ => id) hQ⟩

theorem bind {p : Prog α} {f : α → Prog β} {K : Loc → Prop} {P : α → Loc → Prop} {Q : β → Loc → Prop} (hp : p.Ok K P)
    (hf : ∀ v, (f v).Ok (P v) Q) : (p.bind f).Ok K Q := by
  induction p generalizing K with
  | ret v => exact (hf v).mono hp fun _ _ => id
  | panic => trivial
  | act a k ih => exact ⟨hp.1, fun r => ih r (hp.2 r) hf⟩
  | loop s body k _ ih =>
    obtain ⟨I, R, h1, h2, h3⟩ := hp
    exact ⟨I, R, h1, h2, fun b => ih b (h3 b) hf⟩

theorem frame {p : Prog α} {K : Loc → Prop} {Q : α → Loc → Prop} (F : Loc → Prop) (hp : p.Ok K Q) :
    p.Ok (fun x => K x ∨ F x) (fun v x => Q v x ∨ F x) := by
  induction p generalizing K with
  | ret v => exact fun x hx => Or.imp_left (hp x) hx
  | panic => trivial
  | act a k ih =>
    refine ⟨fun x hx => .inl (hp.1 x hx), fun r => (ih r (hp.2 r)).mono ?_ fun _ _ => id⟩
    rintro x ((h | h) | h)
    · exact .inl (.inl h)
    · exact .inr h
    · exact .inl (.inr h)
  | loop s body k ihb ih =>
    obtain ⟨I, P, h1, h2, h3⟩ := hp
    refine ⟨fun s x => I s x ∨ F x, fun b x => P b x ∨ F x, fun x => Or.imp_left (h1 x), fun s => ?_, fun b => ih b (h3 b)⟩
    refine (ihb s (h2 s)).mono (fun _ => id) ?_
    rintro (s | b) x hx <;> exact hx

/-- A program that needs nothing and promises nothing keeps all knowledge. -/
theorem keep {p : Prog α} {K : Loc → Prop} {Q : α → Loc → Prop} (hp : p.Ok K Q) : p.Ok K fun v x => Q v x ∨ K x :=
  (hp.frame K).mono (fun _ h => h.elim id id) fun _ _ => id

theorem map {p : Prog α} {K : Loc → Prop} {Q : α → Loc → Prop} (f : α → β) {Q' : β → Loc → Prop} (hp : p.Ok K Q)
    (h : ∀ v x, Q' (f v) x → Q v x) : (p.map f).Ok K Q' := hp.bind fun v => h v

/-- No promise about the result. -/
abbrev nothing {α : Type} : α → Loc → Prop := fun _ _ => False

theorem forEach {f : α → Prog β} {K : Loc → Prop} {R : β → Loc → Prop} (xs : List α) (hf : ∀ x ∈ xs, (f x).Ok K R) :
    (Prog.forEach f xs).Ok K fun ys z => ∃ y ∈ ys, R y z := by
  induction xs with
  | nil => rintro z ⟨y, hy, _⟩; cases hy
  | cons x xs ih =>
    refine (hf x (List.mem_cons_self ..)).keep.bind fun y => ?_
    have := (ih fun x hx => hf x (List.mem_cons_of_mem _ hx)).frame (R y)
    refine Prog.Ok.bind (this.mono (fun z h => h.symm) fun _ _ => id) fun ys => ?_
    rintro z ⟨y', hy, hz⟩
    rcases List.mem_cons.1 hy with rfl | hy
    · exact .inr hz
    · exact .inl ⟨y', hy, hz⟩

theorem forEach' {f : α → Prog β} {K : Loc → Prop} (xs : List α) (hf : ∀ x ∈ xs, (f x).Ok K nothing) :
    (Prog.forEach f xs).Ok K nothing := (forEach xs hf).mono (fun _ => id) fun _ _ h => h.elim

theorem map' {p : Prog α} {K : Loc → Prop} (f : α → β) (hp : p.Ok K nothing) : (p.map f).Ok K nothing := hp.map f fun _ _ => id

theorem bind' {p : Prog α} {f : α → Prog β} {K : Loc → Prop} {Q : β → Loc → Prop} (hp : p.Ok K nothing)
    (hf : ∀ v, (f v).Ok K Q) : (p.bind f).Ok K Q := hp.keep.bind fun v => (hf v).mono (fun _ h => .inr h) fun _ _ => id

theorem ret' (v : α) {K : Loc → Prop} : (Prog.ret v).Ok K nothing := fun _ => False.elim

theorem unroll {σ : Type} {s : σ} {body : σ → Prog (σ ⊕ β)} {k : β → Prog α} {K : Loc → Prop} {Q : α → Loc → Prop}
    (h : (Prog.loop s body k).Ok K Q) : (Prog.unroll s body k).Ok K Q := by
  obtain ⟨I, P, h1, h2, h3⟩ := h
  refine ((h2 s).mono h1 fun _ _ => id).bind ?_
  rintro (s' | b)
  · exact ⟨I, P, fun _ => id, h2, h3⟩
  · exact h3 b

theorem withRequest {fs : Fields} (r : Reader) {k : fs.den → Prog (Option Dyn)} {K : Loc → Prop} (hk : ∀ v, (k v).Ok K nothing) :
    (withRequest fs r k).Ok K nothing := by
  unfold KM.withRequest
  split
  · exact ret' _
  · trivial
  · exact (hk _).bind' fun v => by cases v <;> exact ret' _

/-- An action that dereferences nothing. -/
theorem free {a : Act} {k : a.Resp → Prog α} {K : Loc → Prop} {Q : α → Loc → Prop} (ha : a.needs = none) (hk : ∀ r, (k r).Ok K Q) :
    (Prog.act a k).Ok K Q := ⟨fun x hx => (by rw [ha] at hx; cases hx), fun r => (hk r).mono (fun _ => Or.inl) fun _ _ => id⟩

end Prog.Ok

/-- Knowledge stays true, whoever acts. -/
theorem Exec.ok {α : Type} {w w' : World} {p p' : Prog α} {tr : List Ev} (h : Exec w p tr w' p') {K : Loc → Prop} {Q : α → Loc → Prop}
    (hp : p.Ok K Q) (hK : ∀ x, K x → w.has x) : ∃ K', p'.Ok K' Q ∧ ∀ x, K' x → w'.has x := by
  induction h generalizing K with
  | refl => exact ⟨K, hp, hK⟩
  | env a r h _ ih => exact ih hp fun x hx => World.has_step h (hK x hx)
  | mine a k r h _ ih => exact ih (hp.2 r) fun x hx => hx.elim (fun hx => World.has_step h (hK x hx)) fun hx => Act.step_gives h hx
  | unroll _ ih => exact ih hp.unroll hK

/-- A program that is about to act can act. -/
theorem Exec.can_act {α : Type} {w w' : World} {p : Prog α} {tr : List Ev} {Q : α → Loc → Prop} {a : Act} {k : a.Resp → Prog α}
    (h : Exec w p tr w' (.act a k)) (hp : p.Ok (fun _ => False) Q) :
    (∀ x, a.needs = some x → w'.has x) ∧ ∃ r w'', a.step w' r w'' := by
  obtain ⟨K, h1, h2⟩ := h.ok hp (fun _ => False.elim)
  have := fun x hx => h2 x (h1.1 x hx)
  exact ⟨this, Act.enabled this⟩

/-! ### The functions tests call -/

open Prog.Ok

theorem simplePost_ok (t : Bytes) (p : Int) (k v : Option Bytes) : (simplePost t p k v).Ok (fun _ => False) nothing :=
  ⟨nofun, fun _ => ⟨fun _ h => (by cases h; exact .inr rfl), fun _ => ⟨nofun, fun _ => ⟨fun _ h => (by cases h; exact .inl (.inr rfl)), fun _ => ret' _⟩⟩⟩⟩

theorem extendedPost_ok (t : Bytes) (p : Int) (k v : Option Bytes) (hs : List (Bytes × Option Bytes)) (ts : Int) :
    (extendedPost t p k v hs ts).Ok (fun _ => False) nothing :=
  ⟨nofun, fun _ => ⟨fun _ h => (by cases h; exact .inr rfl), fun _ => ⟨nofun, fun _ => ⟨fun _ h => (by cases h; exact .inl (.inr rfl)), fun _ => ret' _⟩⟩⟩⟩

theorem createPartitionTopics_ok (p : Int) (ts : List Bytes) {K : Loc → Prop} : (createPartitionTopics p ts).Ok K nothing := by
  induction ts generalizing K with
  | nil => exact ret' _
  | cons t ts ih => exact ⟨nofun, fun _ => ⟨fun _ h => (by cases h; exact .inr rfl), fun _ => ih⟩⟩

theorem setConsumerGroupOffset_ok (t : Bytes) (p : Int) (g : Bytes) (o : I64) : (setConsumerGroupOffset t p g o).Ok (fun _ => False) nothing := by
  refine ⟨nofun, fun kt => ?_⟩
  dsimp only
  split
  · next h =>
    refine ⟨fun _ hx => (by cases hx; exact .inr ⟨h, rfl⟩), fun kp => ?_⟩
    dsimp only
    split
    · next h2 => exact ⟨fun _ hx => (by cases hx; exact .inr ⟨h2, rfl⟩), fun _ => ret' _⟩
    · exact ret' _
  · exact ret' _

/-! ### The handlers -/

theorem offsetCommit_ok (q : CommitRequest) {K : Loc → Prop} : (offsetCommit q).Ok K nothing := by
  refine map' _ (forEach' _ fun t _ => ⟨nofun, fun kt => map' _ (forEach' _ fun par _ => ?_)⟩)
  unfold commitPartition
  split
  · next h =>
    refine ⟨fun _ hx => (by cases hx; exact .inr ⟨h, rfl⟩), fun kp => ?_⟩
    dsimp only
    split
    · next h2 => exact ⟨fun _ hx => (by cases hx; exact .inr ⟨h2, rfl⟩), fun _ => ret' _⟩
    · exact ret' _
  · exact ret' _

/-- The partitions collected by the first loop of OffsetFetch. -/
def inData (data : List (Bytes × List (Bytes × I32))) (x : Loc) : Prop :=
  ∃ name l, GoMap.get data name = some l ∧ ∃ kp ∈ l, x = (kp.1, some kp.2)

theorem inData_add {data : List (Bytes × List (Bytes × I32))} {name : Bytes} {pi : I32} {x : Loc} (h : inData (addPartition data name pi) x) :
    inData data x ∨ x = (name, some pi) := by
  obtain ⟨n, l, h1, kp, h2, rfl⟩ := h
  unfold addPartition at h1
  rw [GoMap.get_set] at h1
  split at h1
  · next e =>
    cases h1
    rcases List.mem_append.1 h2 with h2 | h2
    · cases hg : GoMap.get data name with
      | none => rw [hg] at h2; cases h2
      | some l => rw [hg] at h2; exact .inl ⟨name, l, hg, kp, h2, rfl⟩
    · cases List.mem_singleton.1 h2; exact .inr rfl
  · exact .inl ⟨n, l, h1, kp, h2, rfl⟩

theorem offsetFetchPartitions_ok (name : Bytes) (pis : List I32) (data : List (Bytes × List (Bytes × I32))) {K : Loc → Prop} (hK : ∀ x, inData data x → K x)
    (hn : K (name, none)) : (offsetFetchPartitions name pis data).Ok K inData := by
  induction pis generalizing data K with
  | nil => exact hK
  | cons pi pis ih =>
    refine ⟨fun _ h => (by cases h; exact hn), fun r => ih _ ?_ (.inl hn)⟩
    intro x hx
    split at hx
    · next hr =>
      rcases inData_add hx with h | h
      · exact .inl (hK x h)
      · exact .inr ⟨hr, h⟩
    · exact .inl (hK x hx)

theorem offsetFetchTopics_ok (ts : List OffsetFetchTopic) (data : List (Bytes × List (Bytes × I32))) {K : Loc → Prop} (hK : ∀ x, inData data x → K x) :
    (offsetFetchTopics ts data).Ok K inData := by
  induction ts generalizing data K with
  | nil => exact hK
  | cons t ts ih =>
    refine ⟨nofun, fun kt => ?_⟩
    dsimp only
    split
    · next h => exact (offsetFetchPartitions_ok _ _ _ (fun x hx => .inl (hK x hx)) (.inr ⟨h, rfl⟩)).bind fun d => ih d fun _ => id
    · exact ih _ fun x hx => .inl (hK x hx)

theorem offsetFetch_ok (q : OffsetFetchRequest) {K : Loc → Prop} : (offsetFetch q).Ok K nothing := by
  refine (offsetFetchTopics_ok _ [] (K := K) ?_).bind fun data => ⟨nofun, fun names => map' _ (forEach' _ fun name _ => map' _ (forEach' _ fun kp hkp => ?_))⟩
  · rintro x ⟨n, l, h, _⟩; cases h
  · have : inData data (kp.1, some kp.2) := by
      cases hg : GoMap.get data name with
      | none => rw [hg] at hkp; cases hkp
      | some l => rw [hg] at hkp; exact ⟨name, l, hg, kp, hkp, rfl⟩
    exact ⟨fun _ h => (by cases h; exact .inl this), fun _ => ⟨fun _ h => (by cases h; exact .inl (.inl this)), fun _ => ret' _⟩⟩

theorem scanBack_ok (t : Bytes) (p : I32) (want : I64) (n : Nat) (ts : I64) {K : Loc → Prop} (hK : K (t, some p)) : (scanBack t p want n ts).Ok K nothing := by
  induction n generalizing ts K with
  | zero => exact ret' _
  | succ n ih =>
    refine ⟨fun _ h => (by cases h; exact hK), ?_⟩
    rintro (_ | rec)
    · trivial
    · dsimp only; split
      · exact ret' _
      · exact ih _ (.inl hK)

theorem listOffsets_ok (q : ListOffsetsRequest) {K : Loc → Prop} : (listOffsets q).Ok K nothing := by
  refine map' _ (forEach' _ fun t _ => ⟨nofun, fun kt => map' _ (forEach' _ fun par _ => ?_)⟩)
  unfold listOffsetsPartition
  dsimp only
  split
  · next h =>
    refine ⟨fun _ hx => (by cases hx; exact .inr ⟨h, rfl⟩), fun kp => ?_⟩
    dsimp only
    split
    · next h2 =>
      have hk : ((K (t.name, some par.partitionIndex) ∨ (Act.getTopic t.name).gives kt (t.name, some par.partitionIndex)) ∨
        (Act.getPartition t.name par.partitionIndex).gives kp (t.name, some par.partitionIndex)) := .inr ⟨h2, rfl⟩
      unfold listOffsetsFound
      dsimp only
      split
      · exact ⟨nofun, fun _ => ⟨fun _ hx => (by cases hx; exact .inl hk), fun _ => ret' _⟩⟩
      · split
        · refine ⟨fun _ hx => (by cases hx; exact hk), fun n => ?_⟩
          dsimp only
          split
          · exact ret' _
          · refine ⟨fun _ hx => (by cases hx; exact .inl hk), ?_⟩
            rintro (_ | rec)
            · trivial
            · exact ret' _
        · exact ⟨fun _ hx => (by cases hx; exact hk), fun n => map' _ (scanBack_ok _ _ _ _ _ (.inl hk))⟩
    · exact ret' _
  · exact ret' _

theorem makeMemberAssignment_ok {K : Loc → Prop} : makeMemberAssignment.Ok K nothing := by
  refine ⟨nofun, fun names => bind' (forEach' _ fun name hn => ⟨fun _ h => (by cases h; exact .inr ⟨name, hn, rfl⟩), fun _ => ret' _⟩) ?_⟩
  intro mpas
  split
  · trivial
  · exact ret' _

/-- The partition of an entry of a Fetch. -/
def inFd (fd : FetchData) (x : Loc) : Prop := ∃ t p, fd.kp = some (t, p) ∧ x = (t, some p)

theorem fetchPass_ok (l : List FetchData) {K : Loc → Prop} (hK : ∀ fd ∈ l, ∀ x, inFd fd x → K x) :
    (fetchPass l).Ok K fun r x => ∃ fd ∈ r.1, inFd fd x := by
  induction l generalizing K with
  | nil => rintro x ⟨fd, h, _⟩; cases h
  | cons fd rest ih =>
    have hr : ∀ {K' : Loc → Prop} (fd' : FetchData) (m : Bool → Bool), (∀ x, K x → K' x) → fd'.kp = fd.kp →
        ((fetchPass rest).bind fun (r : List FetchData × Bool) => .ret (fd' :: r.1, m r.2)).Ok K' fun r x => ∃ fd ∈ r.1, inFd fd x := by
      intro K' fd' m hKK he
      refine ((ih fun fd h => hK fd (List.mem_cons_of_mem _ h)).mono hKK fun _ _ => id).keep.bind fun r => ?_
      rintro x ⟨f, hf, hx⟩
      rcases List.mem_cons.1 hf with rfl | hf
      · obtain ⟨t, p, h1, h2⟩ := hx
        exact .inr (hKK _ (hK fd (List.mem_cons_self ..) x ⟨t, p, he ▸ h1, h2⟩))
      · exact .inl ⟨f, hf, hx⟩
    unfold fetchPass
    split
    · exact hr fd id (fun _ => id) rfl
    · next t p hkp =>
      refine ⟨fun x hx => (by cases hx; exact hK fd (List.mem_cons_self ..) _ ⟨t, p, hkp, rfl⟩), ?_⟩
      rintro (_ | _ | rec)
      · trivial
      · exact hr fd id (fun _ => .inl) rfl
      · refine hr _ (fun _ => true) (fun _ => .inl) ?_
        split <;> rfl

theorem fetch_ok (q : FetchRequest) {K : Loc → Prop} : (fetch q).Ok K nothing := by
  refine Prog.Ok.bind (P := fun l x => ∃ fd ∈ l, inFd fd x) ?_ ?_
  · refine Prog.Ok.map _ (Prog.Ok.forEach (R := fun l x => ∃ fd ∈ l, inFd fd x) _ fun t _ => ⟨nofun, fun kt => Prog.Ok.forEach _ fun par _ => ?_⟩) ?_
    · unfold fetchSetupPartition
      dsimp only
      split
      · next h =>
        refine ⟨fun _ hx => (by cases hx; exact .inr ⟨h, rfl⟩), fun found => ?_⟩
        rintro x ⟨t', p', h1, rfl⟩
        dsimp only at h1
        split at h1
        · next h2 => cases h1; exact .inr ⟨h2, rfl⟩
        · cases h1
      · rintro x ⟨t', p', h1, _⟩; cases h1
    · rintro l x ⟨fd, h1, h2⟩
      obtain ⟨l', h3, h4⟩ := List.mem_flatten.1 h1
      exact ⟨l', h3, fd, h4, h2⟩
  · intro fds
    refine ⟨nofun, fun t => ⟨fun st x => ∃ fd ∈ st.fds, inFd fd x, nothing, fun x h => .inl h, ?_, ?_⟩⟩
    · intro st
      refine (fetchPass_ok _ fun fd h x hx => ⟨fd, h, hx⟩).bind ?_
      rintro ⟨fds, more⟩
      dsimp only
      split
      · exact fun x => id
      · split
        · exact fun x => False.elim
        · refine ⟨nofun, fun t => ?_⟩
          dsimp only
          split
          · exact fun x => False.elim
          · refine ⟨nofun, fun d => ?_⟩
            dsimp only
            split
            · exact fun x => False.elim
            · exact ⟨nofun, fun _ x h => .inl (.inl (.inl h))⟩
    · intro fds
      dsimp only
      split
      · trivial
      · exact ret' _

theorem handler_safe (sv : Server) (api : Api) (r : Reader) {K : Loc → Prop} : (api.handler sv r).Ok K nothing := by
  cases api
  case offsetFetch => exact Prog.Ok.withRequest _ fun _ => (offsetFetch_ok _).map' _
  case offsetCommit => exact Prog.Ok.withRequest _ fun _ => (offsetCommit_ok _).map' _
  case metadata => exact Prog.Ok.withRequest _ fun _ => ret' _
  case findCoordinator => exact Prog.Ok.withRequest _ fun _ => ret' _
  case joinGroup => exact Prog.Ok.withRequest _ fun _ => ret' _
  case syncGroup =>
    refine Prog.Ok.withRequest _ fun v => ?_
    dsimp only
    split
    · exact ret' _
    · exact makeMemberAssignment_ok.map' _
  case leaveGroup => exact Prog.Ok.withRequest _ fun _ => ret' _
  case apiVersions => exact ⟨nofun, fun _ => ret' _⟩
  case heartbeat => exact Prog.Ok.withRequest _ fun _ => ret' _
  case listOffsets => exact Prog.Ok.withRequest _ fun _ => (listOffsets_ok _).map' _
  case fetch => exact Prog.Ok.withRequest _ fun _ => (fetch_ok _).map' _

theorem finish_ok (n : Nat) (c : I32) (h : HRes) {K : Loc → Prop} : (finish n c h).Ok K nothing := by
  have hf : ∀ {K : Loc → Prop}, sendFailed.Ok K nothing := ⟨nofun, fun _ => ret' _⟩
  unfold finish
  split
  · exact ret' _
  · split
    · exact ret' _
    · split
      · trivial
      · refine ⟨nofun, fun ok1 => ?_⟩
        dsimp only
        split
        · refine ⟨nofun, fun ok2 => ?_⟩
          dsimp only
          split
          · refine ⟨nofun, fun ok3 => ?_⟩
            dsimp only
            split
            · exact ret' _
            · exact hf
          · exact hf
        · exact hf

theorem dispatcher_safe (sv : Server) (r : Reader) (n : Nat) {K : Loc → Prop} : (dispatcher sv r n).Ok K nothing := by
  unfold dispatcher
  split
  · exact ret' _
  · trivial
  · dsimp only
    split
    · exact ret' _
    · trivial
    · split
      · exact ret' _
      · exact (handler_safe sv _ _).bind' fun h => finish_ok _ _ _

theorem handle_ok (sv : Server) : (handle sv).Ok (fun _ => False) nothing := by
  have hn : ∀ {v : Bytes ⊕ Unit} {K : Loc → Prop}, (Prog.ret v).Ok K (Sum.elim (fun _ _ => False) nothing) := by
    rintro (v | v) K x h <;> exact h.elim
  refine ⟨fun _ _ => False, nothing, fun _ => id, fun inbound => ?_, fun b => ret' _⟩
  unfold handleBody
  split
  · trivial
  · refine ⟨nofun, fun d => ?_⟩
    dsimp only
    split
    · exact ⟨nofun, fun _ => hn⟩
    · refine ⟨nofun, ?_⟩
      rintro (b | _ | _ | _)
      · exact ⟨nofun, fun _ => hn⟩
      · exact hn
      · exact hn
      · trivial
  · refine ⟨nofun, fun _ => (dispatcher_safe sv _ _).bind' fun res => ⟨nofun, fun _ => ?_⟩⟩
    cases res
    · trivial
    · exact hn

end KM
