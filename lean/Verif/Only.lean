import Verif.Dispatch
import Verif.History
/-
Which actions a program can perform at all, and the projection of multi-threaded runs to one thread.
-/
namespace KM

/-- Every action the program can perform, whatever the results of earlier actions, satisfies `S`. -/
def Prog.Only (S : Act → Prop) : {α : Type} → Prog α → Prop
  | _, .ret _ => True
  | _, .panic => True
  | _, .act a k => S a ∧ ∀ r, (k r).Only S
  | _, .loop _ body k => (∀ s, (body s).Only S) ∧ ∀ b, (k b).Only S

namespace Prog.Only
variable {S : Act → Prop} {α β : Type}

theorem bind {p : Prog α} {f : α → Prog β} (hp : p.Only S) (hf : ∀ v, (f v).Only S) : (p.bind f).Only S := by
  induction p with
  | ret v => exact hf v
  | panic => trivial
  | act a k ih => exact ⟨hp.1, fun r => ih r (hp.2 r) hf⟩
  | loop s body k _ ih => exact ⟨hp.1, fun b => ih b (hp.2 b) hf⟩

theorem map {p : Prog α} (f : α → β) (hp : p.Only S) : (p.map f).Only S := hp.bind fun _ => trivial

theorem forEach {f : α → Prog β} (xs : List α) (hf : ∀ x, (f x).Only S) : (Prog.forEach f xs).Only S := by
  induction xs with
  | nil => trivial
  | cons x xs ih => exact (hf x).bind fun _ => ih.bind fun _ => trivial

theorem mono {S' : Act → Prop} (h : ∀ a, S a → S' a) {p : Prog α} (hp : p.Only S) : p.Only S' := by
  induction p with
  | ret v => trivial
  | panic => trivial
  | act a k ih => exact ⟨h _ hp.1, fun r => ih r (hp.2 r)⟩
  | loop s body k ihb ih => exact ⟨fun s => ihb s (hp.1 s), fun b => ih b (hp.2 b)⟩

theorem unroll {σ : Type} {s : σ} {body : σ → Prog (σ ⊕ β)} {k : β → Prog α} (h : (Prog.loop s body k).Only S) :
    (Prog.unroll s body k).Only S := by
  refine (h.1 s).bind ?_
  rintro (s' | b)
  · exact h
  · exact h.2 b

theorem withRequest {fs : Fields} (r : Reader) {k : fs.den → Prog (Option Dyn)} (hk : ∀ v, (k v).Only S) : (withRequest fs r k).Only S := by
  unfold KM.withRequest
  split
  · trivial
  · trivial
  · refine (hk _).bind ?_
    rintro (_ | d) <;> trivial

end Prog.Only

theorem Exec.only {α : Type} {S : Act → Prop} {w w' : World} {p p' : Prog α} {tr : List Ev} (h : Exec w p tr w' p') (hp : p.Only S) :
    p'.Only S ∧ ∀ e ∈ tr, e.mine = true → S e.act := by
  induction h with
  | refl => exact ⟨hp, by simp⟩
  | env a r h _ ih =>
    obtain ⟨h1, h2⟩ := ih hp
    refine ⟨h1, ?_⟩
    intro e he hm
    rcases List.mem_cons.1 he with rfl | he
    · cases hm
    · exact h2 e he hm
  | mine a k r h _ ih =>
    obtain ⟨h1, h2⟩ := ih (hp.2 r)
    refine ⟨h1, ?_⟩
    intro e he hm
    rcases List.mem_cons.1 he with rfl | he
    · exact hp.1
    · exact h2 e he hm
  | unroll _ ih => exact ih hp.unroll

/-! ### Which actions the handlers perform -/

/-- No change of the store at all. -/
def ReadOnly (a : Act) : Prop := a.mutates = false

/-- No observable effect (no post, commit or reset), no creation of topics or partitions. -/
def NoEffect (a : Act) : Prop := a.mutates = false ∨ ∃ t p g, a = .groupCommitted t p g

/-- Nothing that adds a record. -/
def NoPost (a : Act) : Prop := ∀ t p r, a ≠ .post t p r

theorem ReadOnly.noEffect {a : Act} (h : ReadOnly a) : NoEffect a := .inl h

/-- An action on the connection itself or on its context. -/
def Act.socket : Act → Bool
  | .cancel | .recv | .isStopping | .write _ | .isConnected | .close | .reqBegin _ | .reqEnd => true
  | _ => false

/-- Neither a change of the store nor an action on the connection. -/
def StoreRead (a : Act) : Prop := a.mutates = false ∧ a.socket = false

/-- The same, or the first look at a group's offset. -/
def StoreReadOrTouch (a : Act) : Prop := StoreRead a ∨ ∃ t p g, a = .groupCommitted t p g

theorem StoreRead.readOnly {a : Act} (h : StoreRead a) : ReadOnly a := h.1

theorem fetch_acts (q : FetchRequest) : (fetch q).Only StoreRead := by
  have hpass : ∀ l, (fetchPass l).Only StoreRead := by
    intro l
    induction l with
    | nil => trivial
    | cons fd rest ih =>
      unfold fetchPass
      split
      · exact ih.bind fun _ => trivial
      · refine ⟨⟨rfl, rfl⟩, ?_⟩
        rintro (_ | _ | rec)
        · trivial
        · exact ih.bind fun _ => trivial
        · exact ih.bind fun _ => trivial
  refine Prog.Only.bind ?_ ?_
  · refine Prog.Only.map _ (Prog.Only.forEach _ fun t => ⟨⟨rfl, rfl⟩, fun kt => Prog.Only.forEach _ fun par => ?_⟩)
    unfold fetchSetupPartition
    dsimp only
    split
    · exact ⟨⟨rfl, rfl⟩, fun _ => trivial⟩
    · trivial
  · intro fds
    refine ⟨⟨rfl, rfl⟩, fun t => ⟨?_, ?_⟩⟩
    · intro st
      refine (hpass _).bind ?_
      rintro ⟨fds, more⟩
      dsimp only
      split
      · trivial
      · split
        · trivial
        · refine ⟨⟨rfl, rfl⟩, fun t => ?_⟩
          dsimp only
          split
          · trivial
          · refine ⟨⟨rfl, rfl⟩, fun d => ?_⟩
            dsimp only
            split
            · trivial
            · exact ⟨⟨rfl, rfl⟩, fun _ => trivial⟩
    · intro fds
      dsimp only
      split <;> trivial

theorem scanBack_acts (t : Bytes) (p : I32) (want : I64) (n : Nat) (ts : I64) : (scanBack t p want n ts).Only StoreRead := by
  induction n generalizing ts with
  | zero => trivial
  | succ n ih =>
    refine ⟨⟨rfl, rfl⟩, ?_⟩
    rintro (_ | rec)
    · trivial
    · dsimp only; split
      · trivial
      · exact ih _

theorem listOffsets_acts (q : ListOffsetsRequest) : (listOffsets q).Only StoreRead := by
  refine Prog.Only.map _ (Prog.Only.forEach _ fun t => ⟨⟨rfl, rfl⟩, fun kt => Prog.Only.map _ (Prog.Only.forEach _ fun par => ?_)⟩)
  unfold listOffsetsPartition
  dsimp only
  split
  · refine ⟨⟨rfl, rfl⟩, fun kp => ?_⟩
    dsimp only
    split
    · unfold listOffsetsFound
      dsimp only
      split
      · exact ⟨⟨rfl, rfl⟩, fun _ => ⟨⟨rfl, rfl⟩, fun _ => trivial⟩⟩
      · split
        · refine ⟨⟨rfl, rfl⟩, fun n => ?_⟩
          dsimp only
          split
          · trivial
          · refine ⟨⟨rfl, rfl⟩, ?_⟩
            rintro (_ | rec) <;> trivial
        · exact ⟨⟨rfl, rfl⟩, fun n => Prog.Only.map _ (scanBack_acts ..)⟩
    · trivial
  · trivial

theorem makeMemberAssignment_acts : makeMemberAssignment.Only StoreRead := by
  refine ⟨⟨rfl, rfl⟩, fun names => Prog.Only.bind (Prog.Only.forEach _ fun name => ⟨⟨rfl, rfl⟩, fun _ => trivial⟩) ?_⟩
  intro mpas
  split <;> trivial

theorem offsetFetch_acts (q : OffsetFetchRequest) : (offsetFetch q).Only StoreReadOrTouch := by
  have h1 : ∀ name l data, (offsetFetchPartitions name l data).Only StoreReadOrTouch := by
    intro name l
    induction l with
    | nil => intro data; trivial
    | cons pi l ih => intro data; exact ⟨.inl ⟨rfl, rfl⟩, fun _ => ih _⟩
  have h2 : ∀ l data, (offsetFetchTopics l data).Only StoreReadOrTouch := by
    intro l
    induction l with
    | nil => intro data; trivial
    | cons rt l ih =>
      intro data
      refine ⟨.inl ⟨rfl, rfl⟩, fun kt => ?_⟩
      dsimp only
      split
      · exact (h1 _ _ _).bind fun _ => ih _
      · exact ih _
  refine (h2 _ _).bind fun data => ⟨.inl ⟨rfl, rfl⟩, fun names => Prog.Only.map _ (Prog.Only.forEach _ fun name => Prog.Only.map _ (Prog.Only.forEach _ fun kp => ?_))⟩
  exact ⟨.inr ⟨_, _, _, rfl⟩, fun _ => ⟨.inl ⟨rfl, rfl⟩, fun _ => trivial⟩⟩

/-- The actions of OffsetCommit: no store change except commits for its group. -/
theorem offsetCommit_acts (q : CommitRequest) : (offsetCommit q).Only fun a => StoreRead a ∨ ∃ t p o, a = .commit t p q.groupId o := by
  refine Prog.Only.map _ (Prog.Only.forEach _ fun t => ⟨.inl ⟨rfl, rfl⟩, fun kt => Prog.Only.map _ (Prog.Only.forEach _ fun par => ?_)⟩)
  unfold commitPartition
  split
  · refine ⟨.inl ⟨rfl, rfl⟩, fun kp => ?_⟩
    dsimp only
    split
    · exact ⟨.inr ⟨_, _, _, rfl⟩, fun _ => trivial⟩
    · trivial
  · trivial

theorem fetch_only (q : FetchRequest) : (fetch q).Only ReadOnly := (fetch_acts q).mono fun _ => StoreRead.readOnly

theorem listOffsets_only (q : ListOffsetsRequest) : (listOffsets q).Only ReadOnly := (listOffsets_acts q).mono fun _ => StoreRead.readOnly

theorem makeMemberAssignment_only : makeMemberAssignment.Only ReadOnly := makeMemberAssignment_acts.mono fun _ => StoreRead.readOnly

theorem offsetFetch_only (q : OffsetFetchRequest) : (offsetFetch q).Only NoEffect :=
  (offsetFetch_acts q).mono fun _ h => h.imp StoreRead.readOnly id

/-- The actions of OffsetCommit: no store change except commits for its group. -/
theorem offsetCommit_only (q : CommitRequest) : (offsetCommit q).Only fun a => ReadOnly a ∨ ∃ t p o, a = .commit t p q.groupId o :=
  (offsetCommit_acts q).mono fun _ h => h.imp StoreRead.readOnly id

/-- Every handler except OffsetFetch and OffsetCommit only reads the store. -/
theorem handler_storeRead (sv : Server) (api : Api) (h1 : api ≠ .offsetFetch) (h2 : api ≠ .offsetCommit) (r : Reader) :
    (api.handler sv r).Only StoreRead := by
  cases api
  case offsetFetch => exact absurd rfl h1
  case offsetCommit => exact absurd rfl h2
  case metadata => exact Prog.Only.withRequest _ fun _ => trivial
  case findCoordinator => exact Prog.Only.withRequest _ fun _ => trivial
  case joinGroup => exact Prog.Only.withRequest _ fun _ => trivial
  case syncGroup =>
    refine Prog.Only.withRequest _ fun v => ?_
    dsimp only
    split
    · trivial
    · exact makeMemberAssignment_acts.map _
  case leaveGroup => exact Prog.Only.withRequest _ fun _ => trivial
  case apiVersions => exact ⟨⟨rfl, rfl⟩, fun _ => trivial⟩
  case heartbeat => exact Prog.Only.withRequest _ fun _ => trivial
  case listOffsets => exact Prog.Only.withRequest _ fun _ => (listOffsets_acts _).map _
  case fetch => exact Prog.Only.withRequest _ fun _ => (fetch_acts _).map _

/-- Every handler except OffsetFetch and OffsetCommit performs no store-changing action. -/
theorem handler_readOnly (sv : Server) (api : Api) (h1 : api ≠ .offsetFetch) (h2 : api ≠ .offsetCommit) (r : Reader) :
    (api.handler sv r).Only ReadOnly := (handler_storeRead sv api h1 h2 r).mono fun _ => StoreRead.readOnly

/-- No handler touches the connection or its context. -/
theorem handler_socket (sv : Server) (api : Api) (r : Reader) : (api.handler sv r).Only fun a => a.socket = false := by
  by_cases h1 : api = .offsetFetch
  · subst h1
    refine Prog.Only.withRequest _ fun _ => ((offsetFetch_acts _).mono ?_).map _
    rintro a (h | ⟨t, p, g, rfl⟩)
    · exact h.2
    · rfl
  · by_cases h2 : api = .offsetCommit
    · subst h2
      refine Prog.Only.withRequest _ fun v => ((offsetCommit_acts _).mono ?_).map _
      rintro a (h | ⟨t, p, o, rfl⟩)
      · exact h.2
      · rfl
    · exact (handler_storeRead sv api h1 h2 r).mono fun a h => h.2

/-- What a connection goroutine can do to the store at all: commits, and the invisible first read of a group's offset. -/
def ConnAct (a : Act) : Prop := NoEffect a ∨ ∃ t p g o, a = .commit t p g o

theorem handler_connAct (sv : Server) (api : Api) (r : Reader) : (api.handler sv r).Only ConnAct := by
  by_cases h1 : api = .offsetFetch
  · subst h1
    exact Prog.Only.withRequest _ fun _ => ((offsetFetch_only _).mono fun a h => .inl h).map _
  · by_cases h2 : api = .offsetCommit
    · subst h2
      refine Prog.Only.withRequest _ fun v => ((offsetCommit_only _).mono ?_).map _
      rintro a (h | ⟨t, p, o, rfl⟩)
      · exact .inl (.inl h)
      · exact .inr ⟨_, _, _, _, rfl⟩
    · exact (handler_readOnly sv api h1 h2 r).mono fun a h => .inl (.inl h)

theorem send_only (c : I32) (b : Bytes) : (send c b).Only ReadOnly := by
  have hf : sendFailed.Only ReadOnly := ⟨rfl, fun _ => trivial⟩
  refine ⟨rfl, fun ok1 => ?_⟩
  dsimp only
  split
  · refine ⟨rfl, fun ok2 => ?_⟩
    dsimp only
    split
    · refine ⟨rfl, fun ok3 => ?_⟩
      dsimp only
      split
      · trivial
      · exact hf
    · exact hf
  · exact hf

theorem finish_only (n : Nat) (c : I32) (h : HRes) : (finish n c h).Only ReadOnly := by
  unfold finish
  split
  · trivial
  · split
    · trivial
    · split
      · trivial
      · exact send_only ..

theorem dispatcher_connAct (sv : Server) (r : Reader) (n : Nat) : (dispatcher sv r n).Only ConnAct := by
  unfold dispatcher
  split
  · trivial
  · trivial
  · dsimp only
    split
    · trivial
    · trivial
    · split
      · trivial
      · exact (handler_connAct sv _ _).bind fun h => (finish_only _ _ _).mono fun a h => .inl (.inl h)

theorem handle_connAct (sv : Server) : (handle sv).Only ConnAct := by
  refine ⟨fun inbound => ?_, fun _ => trivial⟩
  unfold handleBody
  split
  · trivial
  · refine ⟨.inl (.inl rfl), fun d => ?_⟩
    dsimp only
    split
    · exact ⟨.inl (.inl rfl), fun _ => trivial⟩
    · refine ⟨.inl (.inl rfl), ?_⟩
      rintro (b | _ | _ | _)
      · exact ⟨.inl (.inl rfl), fun _ => trivial⟩
      · trivial
      · trivial
      · trivial
  · refine ⟨.inl (.inl rfl), fun _ => (dispatcher_connAct sv _ _).bind fun res => ⟨.inl (.inl rfl), fun _ => ?_⟩⟩
    cases res <;> trivial

/-! ### Many goroutines -/

/-- An executed action with the index of the goroutine that performed it (`none`: time, cancellation). -/
structure TEv where
  tid : Option Nat
  act : Act
  resp : act.Resp

/-- Interleaved execution of a pool of goroutines (one that starts later is one that has not yet made a step). The only steps that belong to none of them are the passing of time
and the cancellation of the context. -/
inductive Pool : World → List (Prog Unit) → List TEv → World → List (Prog Unit) → Prop where
  | refl (w : World) (ps : List (Prog Unit)) : Pool w ps [] w ps
  | step {w w1 w2 : World} {ps ps' : List (Prog Unit)} {tr : List TEv} (i : Nat) (a : Act) (k : a.Resp → Prog Unit) (r : a.Resp)
      (hi : ps[i]? = some (.act a k)) (h : a.step w r w1) (hs : Pool w1 (ps.set i (k r)) tr w2 ps') :
      Pool w ps (⟨some i, a, r⟩ :: tr) w2 ps'
  | unroll {w w2 : World} {ps ps' : List (Prog Unit)} {tr : List TEv} (i : Nat) {σ β : Type} {s : σ} {body : σ → Prog (σ ⊕ β)}
      {k : β → Prog Unit} (hi : ps[i]? = some (.loop s body k)) (hs : Pool w (ps.set i (Prog.unroll s body k)) tr w2 ps') :
      Pool w ps tr w2 ps'
  | tick {w w1 w2 : World} {ps ps' : List (Prog Unit)} {tr : List TEv} (d : Nat) (h : (Act.tick d).step w () w1) (hs : Pool w1 ps tr w2 ps') :
      Pool w ps (⟨none, .tick d, ()⟩ :: tr) w2 ps'
  | cancel {w w1 w2 : World} {ps ps' : List (Prog Unit)} {tr : List TEv} (h : Act.cancel.step w () w1) (hs : Pool w1 ps tr w2 ps') :
      Pool w ps (⟨none, .cancel, ()⟩ :: tr) w2 ps'

/-- The events of a pool as seen by goroutine `i`. -/
def viewOf (i : Nat) (tr : List TEv) : List Ev := tr.map fun e => ⟨decide (e.tid = some i), e.act, e.resp⟩

/-- What a pool does, seen by one of its goroutines, is a run of that goroutine's program in some environment. -/
theorem Pool.project {w w' : World} {ps ps' : List (Prog Unit)} {tr : List TEv} (h : Pool w ps tr w' ps') (i : Nat) (p : Prog Unit)
    (hp : ps[i]? = some p) : ∃ p', ps'[i]? = some p' ∧ Exec w p (viewOf i tr) w' p' := by
  induction h generalizing p with
  | refl w ps => exact ⟨p, hp, .refl _ _⟩
  | @step w w1 w2 ps ps' tr j a k r hj hst _ ih =>
    by_cases e : j = i
    · subst e
      rw [hj] at hp; cases hp
      obtain ⟨p', h1, h2⟩ := ih (k r) (by rw [List.getElem?_set]; simp [(List.getElem?_eq_some_iff.1 hj).1])
      refine ⟨p', h1, ?_⟩
      simp only [viewOf, List.map_cons, decide_true]
      exact .mine a k r hst h2
    · obtain ⟨p', h1, h2⟩ := ih p (by rw [List.getElem?_set_ne e]; exact hp)
      refine ⟨p', h1, ?_⟩
      simp only [viewOf, List.map_cons, Option.some.injEq, e, decide_false]
      exact .env a r hst h2
  | @unroll w w2 ps ps' tr j σ β s body k hj _ ih =>
    by_cases e : j = i
    · subst e
      rw [hj] at hp; cases hp
      obtain ⟨p', h1, h2⟩ := ih (Prog.unroll s body k) (by rw [List.getElem?_set]; simp [(List.getElem?_eq_some_iff.1 hj).1])
      exact ⟨p', h1, .unroll h2⟩
    · exact ih p (by rw [List.getElem?_set_ne e]; exact hp)
  | tick d hst _ ih =>
    obtain ⟨p', h1, h2⟩ := ih p hp
    exact ⟨p', h1, .env (.tick d) () hst h2⟩
  | cancel hst _ ih =>
    obtain ⟨p', h1, h2⟩ := ih p hp
    exact ⟨p', h1, .env .cancel () hst h2⟩

theorem Pool.steps {w w' : World} {ps ps' : List (Prog Unit)} {tr : List TEv} (h : Pool w ps tr w' ps') :
    Steps w (tr.map fun e => ⟨false, e.act, e.resp⟩) w' := by
  induction h with
  | refl => exact .nil _
  | step i a k r hi h _ ih => exact .cons ⟨false, a, r⟩ h ih
  | unroll _ _ _ ih => exact ih
  | tick d h _ ih => exact .cons ⟨false, .tick d, ()⟩ h ih
  | cancel h _ ih => exact .cons ⟨false, .cancel, ()⟩ h ih

end KM
