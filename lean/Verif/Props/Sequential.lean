import Verif.Props.Alone
import Verif.Props.Visible
import Verif.Spec.Sequence
/-
C93: a mock that is used by one client or test at a time is the machine of `Spec/Sequence.lean`.
-/
namespace KM.Props
open KM Spec

/-- A goroutine that can change the data: a connection or a caller of an exported function. -/
inductive Who where
  | conn (k : Nat)
  | caller (i : Nat)

/-- The action changes the data: it posts, commits, resets or creates a partition. -/
def changes (a : Act) : Bool := match a with
  | .createPartition .. => true
  | a => a.effect.isSome

/-- Who changes the data with this event. -/
def changedBy : SEv → Option Who
  | .conn k a _ => if changes a then some (.conn k) else none
  | .call i a _ => if changes a then some (.caller i) else none
  | _ => none

/-- Nobody else changes the data. -/
def OnlyBy (x : Who) (tr : List SEv) : Prop := ∀ e ∈ tr, ∀ y, changedBy e = some y → y = x

/-- Nobody changes the data. -/
def Unchanged (tr : List SEv) : Prop := ∀ e ∈ tr, changedBy e = none

/-- What a client or a test does with the mock. -/
inductive Happening where
  /-- a request with its correlation id, and the bytes sent as response -/
  | answered (req : Request) (c : I32) (bytes : Bytes)
  | posted (call : PostCall)
  | created (n : Int) (topics : List Bytes)
  | reset (topic : Bytes) (n : Int) (group : Bytes) (offset : I64)

/-- The records, names and the response are of a size that the wire format has room for. -/
structure Sized (k : Nat) (s1 : Sys) (tr : List SEv) (s2 : Sys) : Prop where
  records : ∀ t p, ∀ r ∈ (s1.view 0).log t p, wireSize r < 2 ^ 31
  names : ∀ t, (s2.view 0).hasTopic t → ShortStr t
  response : (sent (actsOf k tr)).length < 2 ^ 31

/-- A run of the mock in which requests and calls come one after the other, on any connections and from any callers. In between, and at the same time, anything
can happen that does not change the data: clients connect and disconnect, time passes, the mock is stopped and started. -/
inductive Session (sv : Server) (clock : Int) : Sys → List Happening → Sys → Prop where
  | nil (s : Sys) : Session sv clock s [] s
  | idle {s s' s'' : Sys} {tr : List SEv} {l : List Happening} (h : Sys.Run s tr s') (hu : Unchanged tr) (hl : Session sv clock s' l s'') : Session sv clock s l s''
  | request {s s' s'' : Sys} {k : Nat} {req : Request} {c : I32} {t1 tr : List SEv} {l : List Happening} (h : Exchange sv clock k req c t1 s tr s')
      (ho : OnlyBy (.conn k) tr) (hs : Sized k s tr s') (hl : Session sv clock s' l s'') :
      Session sv clock s (.answered req c (sent (actsOf k tr)) :: l) s''
  | post {s s' s'' : Sys} {i : Nat} {call : PostCall} {tr : List SEv} {l : List Happening} (h : CallRun s i call.call tr s')
      (ho : OnlyBy (.caller i) tr) (hl : Session sv clock s' l s'') : Session sv clock s (.posted call :: l) s''
  | create {s s' s'' : Sys} {i : Nat} {n : Int} {topics : List Bytes} {tr : List SEv} {l : List Happening} (h : CallRun s i (.createPartitionTopics n topics) tr s')
      (ho : OnlyBy (.caller i) tr) (hl : Session sv clock s' l s'') : Session sv clock s (.created n topics :: l) s''
  | reset {s s' s'' : Sys} {i : Nat} {topic group : Bytes} {n : Int} {o : I64} {tr : List SEv} {l : List Happening}
      (h : CallRun s i (.setConsumerGroupOffset topic n group o) tr s') (ho : OnlyBy (.caller i) tr) (hl : Session sv clock s' l s'') :
      Session sv clock s (.reset topic n group o :: l) s''

/-- The request is not about the data. -/
def aside : Request → Bool
  | .metadata .. | .findCoordinator .. | .joinGroup .. | .heartbeat .. | .leaveGroup .. | .apiVersions => true
  | _ => false

/-- What a client reads in the response. -/
inductive Received : Happening → Use → Prop where
  | fetch {q : FetchRequest} {c : I32} {b : Bytes} {x : List (Bytes × List Client.FetchedPartition)} (h : Client.response Client.fetch b = some ((c, 0, x), [])) :
      Received (.answered (.fetch q) c b) (.fetch q (seen x))
  | listOffsets {q : ListOffsetsRequest} {c : I32} {b : Bytes} {x : ListOffsetsResponse} (h : Client.response Client.listOffsets b = some ((c, x), [])) :
      Received (.answered (.listOffsets q) c b) (.listOffsets q x.topics)
  | commit {q : CommitRequest} {c : I32} {b : Bytes} {x : CommitResponse} (h : Client.response Client.commit b = some ((c, x), [])) :
      Received (.answered (.offsetCommit q) c b) (.commit q x)
  | offsetFetch {q : OffsetFetchRequest} {c : I32} {b : Bytes} {x : OffsetFetchResponse} (h : Client.response Client.offsetFetch b = some ((c, x), [])) :
      Received (.answered (.offsetFetch q) c b) (.offsetFetch q x.topics)
  | assign {g m : Bytes} {gen c : I32} {b : Bytes} {ts : List (Bytes × List I32)} (h : Client.response Client.syncGroup b = some ((c, 0, 1, ts, none), [])) :
      Received (.answered (.syncGroup g gen m []) c b) (.assign ts)
  | other {req : Request} {c : I32} {b : Bytes} (h : aside req = true) : Received (.answered req c b) .other
  | post (call : PostCall) : Received (.posted call) (.post call.topic call.partition call.key call.value call.extended)
  | create (n : Int) (topics : List Bytes) : Received (.created n topics) (.create n topics)
  | reset (topic : Bytes) (n : Int) (group : Bytes) (o : I64) : Received (.reset topic n group o) (.reset topic n group o)

/-! ### What changes the data -/

theorem step_exists {s s' : Sys} {e : SEv} (h : Sys.Step s e s') {t : Bytes} {p : I32} (hp : (s'.view 0).hasPartition t p) :
    (s.view 0).hasPartition t p ∨ (∃ k r, e = .conn k (.createPartition t p) r) ∨ ∃ i r, e = .call i (.createPartition t p) r := by
  have act : ∀ {a : Act} {w w' : World} {r : a.Resp}, a.step w r w' → w.ds = s.ds → s'.ds = w'.ds → (s.view 0).hasPartition t p ∨ a = .createPartition t p := by
    intro a w w' r ha e1 e2
    unfold World.hasPartition Sys.view at *
    simp only at *
    rcases step_part ha t p with h1 | ⟨_, _, h1⟩ | ⟨kp, h1, _⟩
    · rw [e2, h1, e1] at hp; exact .inl hp
    · exact .inr h1
    · rw [← e1, h1]; exact .inl rfl
  have same : s'.ds = s.ds → (s.view 0).hasPartition t p := by
    intro e
    unfold World.hasPartition Sys.view at *
    simp only at *
    rw [← e]; exact hp
  cases h with
  | life hn => exact .inl (same (next_data hn).2.1)
  | conn _ _ ha =>
    rcases act ha rfl rfl with h | rfl
    · exact .inl h
    · exact .inr (.inl ⟨_, _, rfl⟩)
  | unroll => exact .inl (same rfl)
  | call _ ha =>
    rcases act ha rfl rfl with h | rfl
    · exact .inl h
    · exact .inr (.inr ⟨_, _, rfl⟩)
  | tick => exact .inl (same rfl)

theorem run_exists {s s' : Sys} {tr : List SEv} (h : Sys.Run s tr s') {t : Bytes} {p : I32} (hp : (s'.view 0).hasPartition t p) :
    (s.view 0).hasPartition t p ∨ ∃ e ∈ tr, (∃ k r, e = .conn k (.createPartition t p) r) ∨ ∃ i r, e = .call i (.createPartition t p) r := by
  induction h with
  | nil => exact .inl hp
  | @cons s s1 s2 e es h hs ih =>
    rcases ih hp with h1 | ⟨x, hx, h1⟩
    · rcases step_exists h h1 with h2 | h2
      · exact .inl h2
      · exact .inr ⟨e, by simp, h2⟩
    · exact .inr ⟨x, List.mem_cons_of_mem _ hx, h1⟩

theorem changes_effect {a : Act} (h : changes a = false) : a.effect = none := by
  cases a <;> first | rfl | cases h

theorem changes_create (t : Bytes) (p : I32) : changes (.createPartition t p) = true := rfl

theorem onlyBy_conn {k : Nat} {tr : List SEv} (h : OnlyBy (.conn k) tr) : effectsOf tr = effectsBy (actsOf k tr) := by
  induction tr with
  | nil => rfl
  | cons e tr ih =>
    have ih := ih fun e he => h e (List.mem_cons_of_mem _ he)
    have h0 := h e (by simp)
    unfold effectsOf effectsBy actsOf at *
    cases e with
    | conn c a r =>
      rw [List.filterMap_cons, List.filterMap_cons]
      dsimp only
      by_cases e : c = k
      · rw [if_pos e, List.filterMap_cons, ih]
      · rw [if_neg e, ← ih]
        have : changes a = false := by
          cases hc : changes a with
          | false => rfl
          | true =>
            have := h0 (.conn c) (by simp only [changedBy, hc, if_true])
            cases this; exact absurd rfl e
        rw [changes_effect this]
    | call i a r =>
      rw [List.filterMap_cons, List.filterMap_cons]
      dsimp only
      have : changes a = false := by
        cases hc : changes a with
        | false => rfl
        | true => cases h0 (.caller i) (by simp only [changedBy, hc, if_true])
      rw [changes_effect this, ← ih]
    | _ => exact ih

theorem onlyBy_caller {i : Nat} {tr : List SEv} (h : OnlyBy (.caller i) tr) : effectsOf tr = effectsBy (KM.callsOf i tr) := by
  induction tr with
  | nil => rfl
  | cons e tr ih =>
    have ih := ih fun e he => h e (List.mem_cons_of_mem _ he)
    have h0 := h e (by simp)
    unfold effectsOf effectsBy KM.callsOf at *
    cases e with
    | call c a r =>
      rw [List.filterMap_cons, List.filterMap_cons]
      dsimp only
      by_cases e : c = i
      · rw [if_pos e, List.filterMap_cons, ih]
      · rw [if_neg e, ← ih]
        have : changes a = false := by
          cases hc : changes a with
          | false => rfl
          | true =>
            have := h0 (.caller c) (by simp only [changedBy, hc, if_true])
            cases this; exact absurd rfl e
        rw [changes_effect this]
    | conn k a r =>
      rw [List.filterMap_cons, List.filterMap_cons]
      dsimp only
      have : changes a = false := by
        cases hc : changes a with
        | false => rfl
        | true => cases h0 (.conn k) (by simp only [changedBy, hc, if_true])
      rw [changes_effect this, ← ih]
    | _ => exact ih

theorem unchanged_effects {tr : List SEv} (h : Unchanged tr) : effectsOf tr = [] := by
  unfold effectsOf
  rw [List.filterMap_eq_nil_iff]
  intro e he
  have := h e he
  cases e with
  | conn k a r =>
    dsimp only
    exact changes_effect (by cases hc : changes a with
      | false => rfl
      | true => simp [changedBy, hc] at this)
  | call i a r =>
    dsimp only
    exact changes_effect (by cases hc : changes a with
      | false => rfl
      | true => simp [changedBy, hc] at this)
  | _ => rfl

/-- Partitions that appear during a run were created by the one who changes the data. -/
theorem onlyBy_exists {x : Who} {s s' : Sys} {tr : List SEv} (h : Sys.Run s tr s') (ho : OnlyBy x tr) {t : Bytes} {p : I32} (hp : (s'.view 0).hasPartition t p) :
    (s.view 0).hasPartition t p ∨ match x with
      | .conn k => ∃ e ∈ actsOf k tr, e.act = .createPartition t p
      | .caller i => ∃ e ∈ KM.callsOf i tr, e.act = .createPartition t p := by
  rcases run_exists h hp with h1 | ⟨e, he, ⟨k, r, rfl⟩ | ⟨i, r, rfl⟩⟩
  · exact .inl h1
  · right
    cases ho _ he (.conn k) rfl
    exact ⟨⟨.createPartition t p, r⟩, List.mem_filterMap.2 ⟨_, he, by simp⟩, rfl⟩
  · right
    cases ho _ he (.caller i) rfl
    exact ⟨⟨.createPartition t p, r⟩, List.mem_filterMap.2 ⟨_, he, by simp⟩, rfl⟩

/-- The data after a run, from what it does to it. -/
theorem data_eq {s s' : Sys} {tr : List SEv} (h : Sys.Run s tr s') {d : Data}
    (hp : ∀ t p, (s'.view 0).hasPartition t p ↔ (d.log t p).isSome) (hl : ∀ t p, (s'.view 0).hasPartition t p → d.log t p = some ((s.view 0).log t p ++ Spec.posts (effectsOf tr) t p))
    (hc : ∀ t p g, (d.offset t p g).toInt = Spec.committedFrom ((s.view 0).committed t p g).toInt (effectsOf tr) t p g) : data s' = d := by
  obtain ⟨k1, k2, _, _⟩ := C46_kept h
  have e1 : (data s').log = d.log := by
    funext t p
    by_cases h1 : (s'.view 0).hasPartition t p
    · rw [data_some h1, hl t p h1, k1]
    · rw [data_none h1]
      rw [hp t p] at h1
      cases e : d.log t p with
      | none => rfl
      | some l => rw [e] at h1; exact absurd rfl h1
  have e2 : (data s').offset = d.offset := by
    funext t p g
    refine BitVec.eq_of_toInt_eq ?_
    rw [hc]; exact k2 t p g
  cases d
  cases e1; cases e2; rfl

/-- Nothing is changed if there are no effects and no new partitions. -/
theorem data_same {s s' : Sys} {tr : List SEv} (h : Sys.Run s tr s') (he : effectsOf tr = []) (hn : ∀ t p, (s'.view 0).hasPartition t p → (s.view 0).hasPartition t p) :
    data s' = data s := by
  obtain ⟨_, _, _, k4⟩ := C46_kept h
  refine data_eq h (fun t p => ?_) (fun t p h1 => ?_) fun t p g => ?_
  · rw [Option.isSome_iff_ne_none, data_ne]
    exact ⟨hn t p, k4 t p⟩
  · rw [data_some (hn t p h1), he]
    exact congrArg some (List.append_nil _).symm
  · rw [he]; rfl

theorem idle_data {s s' : Sys} {tr : List SEv} (h : Sys.Run s tr s') (hu : Unchanged tr) : data s' = data s := by
  refine data_same h (unchanged_effects hu) fun t p hp => ?_
  rcases run_exists h hp with h1 | ⟨e, he, ⟨k, r, rfl⟩ | ⟨i, r, rfl⟩⟩
  · exact h1
  · cases hu _ he
  · cases hu _ he

/-! ### Requests -/

theorem exchange_alone {sv : Server} {clock : Int} {k : Nat} {req : Request} {c : I32} {t1 tr : List SEv} {s1 s2 : Sys} (h : Exchange sv clock k req c t1 s1 tr s2)
    (ho : OnlyBy (.conn k) tr) : Alone k s1 tr s2 := by
  obtain ⟨_, _, _, hd⟩ := h.serves
  refine ⟨onlyBy_conn ho, fun t p hp => ?_⟩
  rw [data_ne] at hp ⊢
  rcases onlyBy_exists hd.during ho hp with h1 | ⟨e, he, h1⟩
  · exact h1
  · exfalso
    obtain ⟨ctx, es, g1, g2, _⟩ := h.run
    obtain ⟨_, _, _, _, g3⟩ := g1.run
    rw [← g2] at he
    have := (g3.own.only (dispatcher_connAct sv _ _)).2 e he
    rw [h1] at this
    rcases this with (h | ⟨_, _, _, h⟩) | ⟨_, _, _, _, h⟩ <;> cases h

theorem answer_noEffect (sv : Server) (req : Request) (h : ∀ q, req ≠ .offsetCommit q) : (answer sv req).Only NoEffect := by
  cases req with
  | fetch q => exact ((fetch_only q).mono fun _ h => .inl h).map _
  | listOffsets q => exact ((listOffsets_only q).mono fun _ h => .inl h).map _
  | offsetFetch q => exact (offsetFetch_only q).map _
  | offsetCommit q => exact absurd rfl (h q)
  | syncGroup g gen m as =>
    simp only [answer]
    split
    · trivial
    · have hp : assignedPartitions.Only NoEffect := ⟨.inl rfl, fun names => Prog.Only.forEach names fun _ => ⟨.inl rfl, fun _ => trivial⟩⟩
      exact hp.map _
  | apiVersions => exact ⟨.inl rfl, fun _ => trivial⟩
  | _ => trivial

theorem exchange_same {sv : Server} {clock : Int} {k : Nat} {req : Request} {c : I32} {t1 tr : List SEv} {s1 s2 : Sys} (h : Exchange sv clock k req c t1 s1 tr s2)
    (ho : OnlyBy (.conn k) tr) (hq : ∀ q, req ≠ .offsetCommit q) : data s2 = data s1 := by
  have ha := exchange_alone h ho
  obtain ⟨_, _, _, hd⟩ := h.serves
  refine data_same hd.during ?_ fun t p hp => data_ne.1 (ha.created t p (data_ne.2 hp))
  obtain ⟨ctx, es, g1, g2, _⟩ := h.run
  rw [ha.effects, ← g2]
  obtain ⟨client, n, k1, k2, k3⟩ := g1.run
  rcases request_run g1.wellFormed k1 k2 g1.body k3 g1.sentAll g1.over with ⟨h1, _⟩ | ⟨ta, tb, w1, rfl, hs, ⟨_, h1, _⟩ | ⟨payload, h1, _, h3, h4⟩⟩
  · cases h1
  · cases h1
  · rw [own_append, effectsBy_append, h4, effectsBy_own (answer_noEffect sv req hq) (fun _ => noEffect_effect) h1]; rfl

/-- A request, as a step of the machine. -/
theorem request_step {sv : Server} {clock : Int} {k : Nat} {req : Request} {c : I32} {t1 tr : List SEv} {s1 s2 : Sys} (h : Exchange sv clock k req c t1 s1 tr s2)
    (ho : OnlyBy (.conn k) tr) (hs : Sized k s1 tr s2) :
    ∃ u, Received (.answered req c (sent (actsOf k tr))) u ∧ u.Step (data s1) s1.clock (data s2) s2.clock := by
  have ha := exchange_alone h ho
  have hsame := exchange_same h ho
  cases req with
  | fetch q =>
    obtain ⟨x, h1, h2⟩ := C92_fetch h ha hs.records hs.response
    exact ⟨_, .fetch h1, h2, hsame (by simp)⟩
  | listOffsets q =>
    obtain ⟨x, h1, h2⟩ := C92_list_offsets h ha
    exact ⟨_, .listOffsets h1, hsame (by simp), h2⟩
  | offsetCommit q =>
    obtain ⟨h1, h2, h3⟩ := C92_commit h ha
    refine ⟨_, .commit h1, rfl, ?_⟩
    have h4 : (data s2).offset = ((data s1).commit q).offset := by
      funext t p g
      have := congrArg (BitVec.ofInt 64) (h2 t p g)
      rw [BitVec.ofInt_toInt] at this
      exact this
    generalize data s2 = d at *
    cases d; cases h3; cases h4; rfl
  | offsetFetch q =>
    obtain ⟨x, h1, h2⟩ := C92_offset_fetch h ha
    exact ⟨_, .offsetFetch h1, hsame (by simp), h2⟩
  | syncGroup g gen m as =>
    cases as with
    | nil =>
      obtain ⟨ts, h1, h2⟩ := C59_sync_group h hs.names hs.response
      refine ⟨_, .assign h1, hsame (by simp), h2.once, h2.partsOnce, fun t p => ?_⟩
      rw [Option.isSome_iff_ne_none]
      constructor
      · rintro ⟨ps, h3, h4⟩
        exact ha.created t p (data_ne.2 (h2.partsExist _ h3 p h4))
      · intro h3
        rw [data_ne] at h3
        obtain ⟨y, hy, rfl⟩ := List.mem_map.1 (h2.topics t h3.hasTopic)
        exact ⟨y.2, hy, h2.parts y hy p h3⟩
    | cons a as =>
      exfalso
      obtain ⟨ctx, es, g1, _, _⟩ := h.run
      obtain ⟨client, n, k1, k2, k3⟩ := g1.run
      rcases request_run g1.wellFormed k1 k2 g1.body k3 g1.sentAll g1.over with ⟨h1, _⟩ | ⟨ta, tb, w1, rfl, _, ⟨_, h1, _⟩ | ⟨payload, h1, _⟩⟩
      · cases h1
      · cases h1
      · simp only [answer] at h1
        rw [if_pos (by simp)] at h1
        obtain ⟨e, _⟩ := exec_ret_inv h1
        cases e
  | _ => exact ⟨_, .other rfl, hsame (by simp)⟩

/-! ### Calls -/

theorem callRun_clock {s0 s2 : Sys} {i : Nat} {c : Call} {tr : List SEv} (h : CallRun s0 i c tr s2) : s0.clock ≤ s2.clock := by
  obtain ⟨s1, h1, h2⟩ := h.run
  exact run_clock (.cons h1 h2)

/-- What a call sees of the store when it is made. -/
structure SameStore (s s' : Sys) : Prop where
  data : data s' = data s
  log : ∀ t p, (s'.view 0).log t p = (s.view 0).log t p
  exist : ∀ t p, (s'.view 0).hasPartition t p ↔ (s.view 0).hasPartition t p
  committed : ∀ t p g, (s'.view 0).committed t p g = (s.view 0).committed t p g

theorem sameStore {s s' : Sys} (h : s'.ds = s.ds) : SameStore s s' := by
  have h1 : (s'.view 0).ds = (s.view 0).ds := h
  refine ⟨?_, fun t p => ?_, fun t p => ?_, fun t p g => ?_⟩
  · unfold Props.data World.log World.committed; rw [h1]
  · unfold World.log; rw [h1]
  · unfold World.hasPartition; rw [h1]
  · unfold World.committed; rw [h1]

/-- The actions of a posting function. -/
theorem postCall_acts (c : PostCall) : c.prog.Only fun a => (a.effect = none ∧ ∀ t p, a = .createPartition t p → t = c.topic ∧ p = BitVec.ofInt 32 c.partition) ∨
    ∃ r, a = .post c.topic (BitVec.ofInt 32 c.partition) r := by
  unfold PostCall.prog
  have h1 : ∀ t : Bytes, Act.effect (.createTopic t) = none ∧ ∀ t' p, Act.createTopic t = .createPartition t' p → t' = c.topic ∧ p = BitVec.ofInt 32 c.partition :=
    fun t => ⟨rfl, fun _ _ h => by cases h⟩
  have h2 : Act.effect (.createPartition c.topic (BitVec.ofInt 32 c.partition)) = none ∧
      ∀ t' p, Act.createPartition c.topic (BitVec.ofInt 32 c.partition) = .createPartition t' p → t' = c.topic ∧ p = BitVec.ofInt 32 c.partition :=
    ⟨rfl, fun _ _ h => by cases h; exact ⟨rfl, rfl⟩⟩
  split
  · exact ⟨.inl (h1 _), fun _ => ⟨.inl h2, fun _ => ⟨.inl ⟨rfl, fun _ _ h => by cases h⟩, fun _ => ⟨.inr ⟨_, rfl⟩, fun _ => trivial⟩⟩⟩⟩
  · exact ⟨.inl (h1 _), fun _ => ⟨.inl h2, fun _ => ⟨.inl ⟨rfl, fun _ _ h => by cases h⟩, fun _ => ⟨.inr ⟨_, rfl⟩, fun _ => trivial⟩⟩⟩⟩

theorem effectsBy_posts {l : List REv} (h : ∀ e ∈ l, e.act.effect = none ∨ ∃ t p r, e.act = .post t p r) :
    effectsBy l = (postsIn l).map fun x => .post x.1 x.2.1 x.2.2 := by
  induction l with
  | nil => rfl
  | cons e l ih =>
    have ih := ih fun e he => h e (List.mem_cons_of_mem _ he)
    unfold effectsBy postsIn at *
    rw [List.filterMap_cons, List.filterMap_cons]
    obtain ⟨a, r⟩ := e
    have h0 := h ⟨a, r⟩ (by simp)
    clear h
    dsimp only at h0
    cases a
    case post t p r' =>
      show _ :: List.filterMap _ l = List.map _ (_ :: List.filterMap _ l)
      rw [ih, List.map_cons]
    all_goals
      first
        | exact ih
        | (rcases h0 with h1 | ⟨_, _, _, h1⟩ <;> cases h1)

/-- A post, as a step of the machine. -/
theorem post_step {i : Nat} {call : PostCall} {tr : List SEv} {s1 s2 : Sys} (h : CallRun s1 i call.call tr s2) (ho : OnlyBy (.caller i) tr) :
    (Use.post call.topic call.partition call.key call.value call.extended).Step (data s1) s1.clock (data s2) s2.clock := by
  obtain ⟨sx, hs, hr⟩ := h.run
  obtain ⟨ta, tb, r, etr, n1, n2, hm, _⟩ := C57_post_takes_effect hs h.idle hr h.inside h.returns
  obtain ⟨s0, es, e1, e2, e3, e4, e5⟩ := h.exec call.entry
  have hst := sameStore e1
  have honly := (e3.own.only (postCall_acts call)).2
  rw [e4] at honly
  have hposts : callPosts i tr = [(call.topic, BitVec.ofInt 32 call.partition, r)] := by
    unfold callPosts at *
    rw [etr, List.filterMap_append, n1, List.filterMap_cons, n2]
    simp
  have heff : effectsOf tr = [.post call.topic (BitVec.ofInt 32 call.partition) r] := by
    rw [onlyBy_caller ho, effectsBy_posts, ← callPosts_eq, hposts]; rfl
    intro e he
    rcases honly e he with ⟨h, _⟩ | ⟨r, h⟩
    · exact .inl h
    · exact .inr ⟨_, _, _, h⟩
  obtain ⟨k1, k2, _, k4⟩ := C46_kept e2
  have hnew : ∀ t p, (s2.view 0).hasPartition t p ↔ ((t = call.topic ∧ p = BitVec.ofInt 32 call.partition) ∨ (s1.view 0).hasPartition t p) := by
    intro t p
    constructor
    · intro hp
      rcases onlyBy_exists e2 ho hp with h1 | ⟨e, he, h1⟩
      · exact .inr ((hst.exist t p).1 h1)
      · rcases honly e he with ⟨_, h2⟩ | ⟨r, h2⟩
        · exact .inl (h2 t p h1)
        · rw [h1] at h2; cases h2
    · rintro (⟨rfl, rfl⟩ | h1)
      · refine Classical.byContradiction fun hn => ?_
        have := k1 call.topic (BitVec.ofInt 32 call.partition)
        rw [log_missing hn, heff] at this
        simp [Spec.posts] at this
      · exact k4 t p ((hst.exist t p).2 h1)
  obtain ⟨m1, m2, m3, m4⟩ := hm
  refine ⟨r, m1, m2, m3, data_eq e2 (fun t p => ?_) (fun t p hp => ?_) fun t p g => ?_, m4⟩
  · rw [hnew]
    unfold Data.post
    dsimp only
    by_cases e : t = call.topic ∧ p = BitVec.ofInt 32 call.partition
    · simp [e]
    · rw [if_neg e, Option.isSome_iff_ne_none, data_ne]
      exact ⟨fun h => h.resolve_left e, .inr⟩
  · unfold Data.post
    dsimp only
    rw [heff, hst.log]
    by_cases e : t = call.topic ∧ p = BitVec.ofInt 32 call.partition
    · rw [if_pos e, e.1, e.2, data_log]
      simp [Spec.posts]
    · rw [if_neg e, data_some (((hnew t p).1 hp).resolve_left e)]
      have : ¬ (call.topic = t ∧ BitVec.ofInt 32 call.partition = p) := fun h => e ⟨h.1.symm, h.2.symm⟩
      simp [Spec.posts, this]
  · rw [heff, hst.committed]; rfl

/-- The creation of partitions, as a step of the machine. -/
theorem create_step {i : Nat} {n : Int} {topics : List Bytes} {tr : List SEv} {s1 s2 : Sys} (h : CallRun s1 i (.createPartitionTopics n topics) tr s2) (ho : OnlyBy (.caller i) tr) :
    (Use.create n topics).Step (data s1) s1.clock (data s2) s2.clock := by
  obtain ⟨s0, es, e1, e2, e3, e4, e5⟩ := h.exec rfl
  have hst := sameStore e1
  have honly := (e3.own.only (createPartitionTopics_only n topics)).2
  rw [e4] at honly
  have heff : effectsOf tr = [] := by
    rw [onlyBy_caller ho]
    unfold effectsBy
    rw [List.filterMap_eq_nil_iff]
    intro e he
    rcases honly e he with ⟨_, _, h⟩ | ⟨_, _, h⟩ <;> rw [h] <;> rfl
  obtain ⟨k1, k2, _, k4⟩ := C46_kept e2
  have hnew : ∀ t p, (s2.view 0).hasPartition t p ↔ ((t ∈ topics ∧ p = BitVec.ofInt 32 n) ∨ (s1.view 0).hasPartition t p) := by
    intro t p
    constructor
    · intro hp
      rcases onlyBy_exists e2 ho hp with h1 | ⟨e, he, h1⟩
      · exact .inr ((hst.exist t p).1 h1)
      · rcases honly e he with ⟨_, _, h2⟩ | ⟨t', ht, h2⟩
        · rw [h1] at h2; cases h2
        · rw [h1] at h2; cases h2; exact .inl ⟨ht, rfl⟩
    · rintro (⟨h1, rfl⟩ | h1)
      · exact createPartitionTopics_creates e3 t h1
      · exact k4 t p ((hst.exist t p).2 h1)
  refine data_eq e2 (fun t p => ?_) (fun t p hp => ?_) fun t p g => ?_
  · rw [hnew]
    unfold Data.create
    dsimp only
    by_cases e : t ∈ topics ∧ p = BitVec.ofInt 32 n
    · simp [e]
    · rw [if_neg e, Option.isSome_iff_ne_none, data_ne]
      exact ⟨fun h => h.resolve_left e, .inr⟩
  · unfold Data.create
    dsimp only
    rw [heff, hst.log, show Spec.posts ([] : List Eff) t p = [] from rfl, List.append_nil]
    by_cases e : t ∈ topics ∧ p = BitVec.ofInt 32 n
    · rw [if_pos e, data_log]
    · rw [if_neg e, data_some (((hnew t p).1 hp).resolve_left e)]
  · rw [heff, hst.committed]; rfl

theorem effects_split (es : List Ev) : (effects es).length = (effectsBy (own es)).length + (effects (others es)).length := by
  induction es with
  | nil => rfl
  | cons e es ih =>
    obtain ⟨m, a, r⟩ := e
    unfold effects effectsBy own others at *
    cases m <;> cases h : a.effect <;> simp [h, List.filterMap_cons] at * <;> omega

theorem committedFrom_other {l : List Eff} {t t' : Bytes} {p p' : I32} {g g' : Bytes} {o : Int} (h : ∀ e ∈ l, e = .reset t' p' g' o) (hn : ¬ (t = t' ∧ p = p' ∧ g = g')) (c : Int) :
    Spec.committedFrom c l t p g = c := by
  induction l with
  | nil => rfl
  | cons e l ih =>
    rw [h e (by simp), Spec.committedFrom, if_neg (fun x => hn ⟨x.1.symm, x.2.1.symm, x.2.2.symm⟩)]
    exact ih fun e he => h e (List.mem_cons_of_mem _ he)

/-- The reset of a group's offset, as a step of the machine. -/
theorem reset_step {i : Nat} {topic group : Bytes} {n : Int} {o : I64} {tr : List SEv} {s1 s2 : Sys} (h : CallRun s1 i (.setConsumerGroupOffset topic n group o) tr s2)
    (ho : OnlyBy (.caller i) tr) : (Use.reset topic n group o).Step (data s1) s1.clock (data s2) s2.clock := by
  obtain ⟨s0, es, e1, e2, e3, e4, e5⟩ := h.exec rfl
  have hst := sameStore e1
  have honly := (e3.own.only (setOffset_only topic n group o)).2
  have heff : effectsOf tr = effectsBy (own es) := by rw [onlyBy_caller ho, e4]
  have hall : ∀ e ∈ effectsOf tr, e = .reset topic (BitVec.ofInt 32 n) group o.toInt := by
    intro e he
    rw [heff] at he
    obtain ⟨x, hx, h1⟩ := List.mem_filterMap.1 he
    rcases honly x hx with h2 | h2
    · rw [readOnly_effect h2] at h1; cases h1
    · rw [h2] at h1; cases h1; rfl
  have hposts : ∀ t p, Spec.posts (effectsOf tr) t p = [] := by
    intro t p
    have : ∀ l : List Eff, (∀ e ∈ l, e = .reset topic (BitVec.ofInt 32 n) group o.toInt) → Spec.posts l t p = [] := by
      intro l
      induction l with
      | nil => intro _; rfl
      | cons e l ih =>
        intro hl
        rw [hl e (by simp)]
        exact ih fun e he => hl e (List.mem_cons_of_mem _ he)
    exact this _ hall
  obtain ⟨k1, k2, _, k4⟩ := C46_kept e2
  have hnew : ∀ t p, (s2.view 0).hasPartition t p ↔ (s1.view 0).hasPartition t p := by
    intro t p
    constructor
    · intro hp
      rcases onlyBy_exists e2 ho hp with h1 | ⟨e, he, h1⟩
      · exact (hst.exist t p).1 h1
      · rw [← e4] at he
        rcases honly e he with h2 | h2
        · rw [h1] at h2; cases h2
        · rw [h1] at h2; cases h2
    · exact fun h1 => k4 t p ((hst.exist t p).2 h1)
  refine data_eq e2 (fun t p => ?_) (fun t p hp => ?_) fun t p g => ?_
  · rw [hnew, Option.isSome_iff_ne_none]; exact data_ne.symm
  · rw [hposts, List.append_nil, hst.log]
    exact data_some ((hnew t p).1 hp)
  · unfold Data.reset
    dsimp only
    rw [← k2 t p g]
    by_cases hp : (s1.view 0).hasPartition topic (BitVec.ofInt 32 n)
    · by_cases e : t = topic ∧ p = BitVec.ofInt 32 n ∧ g = group
      · rw [if_pos ⟨by rw [data_some hp]; rfl, e⟩, e.1, e.2.1, e.2.2]
        have h1 : (effects (others es)).length = 0 := by
          have := effects_split es
          rw [e5, heff] at this
          omega
        have h2 := (C28_reset_exact e3 ((hst.exist _ _).2 hp)).2 fun x hx => by
          have := List.eq_nil_of_length_eq_zero h1
          unfold effects at this
          rw [List.filterMap_eq_nil_iff] at this
          exact this x hx
        rw [h2]
      · rw [if_neg (fun x => e x.2), k2, committedFrom_other hall e, hst.committed]; rfl
    · rw [if_neg (by rw [data_none hp]; simp)]
      by_cases e : t = topic ∧ p = BitVec.ofInt 32 n ∧ g = group
      · rw [e.1, e.2.1, committed_missing (fun x => hp ((hnew _ _).1 x))]
        exact congrArg BitVec.toInt (committed_missing hp g)
      · rw [k2, committedFrom_other hall e, hst.committed]; rfl

theorem behaves_mono {d d' : Data} {c0 c c' : Int} {l : List Use} (h0 : c0 ≤ c) (h : Behaves d c l d' c') : Behaves d c0 l d' c' := by
  cases h with
  | nil h => exact .nil (Int.le_trans h0 h)
  | cons h1 h2 h3 h4 => exact .cons (Int.le_trans h0 h1) h2 h3 h4

/-- **C93**: whoever uses the mock one at a time uses the machine of `Spec/Sequence.lean`: every answer and all data are determined by it. -/
theorem C93_sequential {sv : Server} {clock : Int} {s s' : Sys} {l : List Happening} (h : Session sv clock s l s') :
    ∃ us, List.Forall₂ Received l us ∧ Behaves (data s) s.clock us (data s') s'.clock := by
  induction h with
  | nil s => exact ⟨[], .nil, .nil (Int.le_refl _)⟩
  | idle h hu _ ih =>
    obtain ⟨us, h1, h2⟩ := ih
    rw [idle_data h hu] at h2
    exact ⟨us, h1, behaves_mono (run_clock h) h2⟩
  | request h ho hs _ ih =>
    obtain ⟨us, h1, h2⟩ := ih
    obtain ⟨u, h3, h4⟩ := request_step h ho hs
    obtain ⟨_, _, _, hd⟩ := h.serves
    exact ⟨u :: us, .cons h3 h1, .cons (Int.le_refl _) h4 (run_clock hd.during) h2⟩
  | post h ho _ ih =>
    obtain ⟨us, h1, h2⟩ := ih
    exact ⟨_ :: us, .cons (.post _) h1, .cons (Int.le_refl _) (post_step h ho) (callRun_clock h) h2⟩
  | create h ho _ ih =>
    obtain ⟨us, h1, h2⟩ := ih
    exact ⟨_ :: us, .cons (.create ..) h1, .cons (Int.le_refl _) (create_step h ho) (callRun_clock h) h2⟩
  | reset h ho _ ih =>
    obtain ⟨us, h1, h2⟩ := ih
    exact ⟨_ :: us, .cons (.reset ..) h1, .cons (Int.le_refl _) (reset_step h ho) (callRun_clock h) h2⟩

theorem data_new (sv : Server) (clock : Int) : data (Sys.new sv clock) = Data.empty := rfl

/-- **C93** for a new mock. -/
theorem C93_new {sv : Server} {clock : Int} {s' : Sys} {l : List Happening} (h : Session sv clock (Sys.new sv clock) l s') :
    ∃ us, List.Forall₂ Received l us ∧ Behaves Data.empty clock us (data s') s'.clock := C93_sequential h

/-! ### Example -/

def isWho : Who → Who → Bool
  | .conn k, .conn k' => k == k'
  | .caller i, .caller i' => i == i'
  | _, _ => false

theorem onlyBy_of {x : Who} {tr : List SEv} (h : (tr.all fun e => match changedBy e with
    | some y => isWho y x
    | none => true) = true) : OnlyBy x tr := by
  intro e he y hy
  have := List.all_eq_true.1 h e he
  rw [hy] at this
  cases x <;> cases y <;> simp_all [isWho]

theorem unchanged_of {tr : List SEv} (h : (tr.all fun e => (changedBy e).isNone) = true) : Unchanged tr := fun e he => Option.isNone_iff_eq_none.1 (List.all_eq_true.1 h e he)

theorem sized_of {k : Nat} {s1 s2 : Sys} {tr : List SEv} (h1 : ((s1.view 0).ds.all fun x => x.2.all fun y => y.2.records.all fun r => decide (wireSize r < 2 ^ 31)) = true)
    (h2 : ((s2.view 0).ds.all fun x => decide (x.1.length ≤ 100)) = true) (h3 : (sent (actsOf k tr)).length < 2 ^ 31) : Sized k s1 tr s2 := by
  refine ⟨fun t p r hr => ?_, fun t ht => ?_, h3⟩
  · unfold World.log Store.part? at hr
    cases e : GoMap.get (s1.view 0).ds t with
    | none => rw [e] at hr; cases hr
    | some kt =>
      rw [e, Option.bind_some] at hr
      cases e2 : GoMap.get kt p with
      | none => rw [e2] at hr; cases hr
      | some kp =>
        rw [e2] at hr
        have := List.all_eq_true.1 (List.all_eq_true.1 (List.all_eq_true.1 h1 _ (GoMap.get_mem e)) _ (GoMap.get_mem e2)) r hr
        exact of_decide_eq_true this
  · unfold World.hasTopic at ht
    cases e : GoMap.get (s2.view 0).ds t with
    | none => simp [e] at ht
    | some kt => exact shortStr (of_decide_eq_true (List.all_eq_true.1 h2 _ (GoMap.get_mem e)))

/-- The events of connection `k` until it has taken up a request. -/
def taking (k : Nat) (req : Request) (c : I32) (s : Sys) : List SEv := eventsOf (asks k req c) s ++ eventsOf [.conn k] (stateAfter (asks k req c) s)

theorem taking_run (k : Nat) (req : Request) (c : I32) (s : Sys) : Sys.Run s (taking k req c s) (taken k req c s) := (stateAfter_run _ _).append (stateAfter_run _ _)

def seq1 : Sys := answered 0 12 askFetch 7 postedState
def seq2 : Sys := stateAfter [.conn 0] seq1
def seq3 : Sys := answered 0 7 askCommit 8 seq2

theorem seq_run {s : Sys} {t0 : List SEv} (h : Sys.Run (Sys.new ⟨9092, []⟩ 0) t0 s) (k n : Nat) (req : Request) (c : I32) :
    ∃ t, Sys.Run (Sys.new ⟨9092, []⟩ 0) t (stateAfter [.conn k] (answered k n req c s)) :=
  ⟨_, ((h.append (taking_run k req c _)).append (stateAfter_run _ _)).append (stateAfter_run _ _)⟩

theorem seq2_run : ∃ t, Sys.Run (Sys.new ⟨9092, []⟩ 0) t seq2 := by
  obtain ⟨t0, h⟩ := called_run 4 posting.call _ rfl
  exact seq_run h 0 12 askFetch 7

set_option synthInstance.maxSize 1000 in
set_option maxRecDepth 100000 in
/-- The hypotheses of `C93_sequential`: in a mock with one record another one is posted; then a client fetches, and commits an offset. -/
example : ∃ b1 b2, Session ⟨9092, []⟩ 0 oneRecord [.posted posting, .answered askFetch 7 b1, .answered askCommit 8 b2] seq3 ∧
    ((Client.response Client.fetch b1).map fun x => x.1.2.2.map fun t => t.2.map fun p => p.messages.map (·.value)) = some [[[some [1, 2], some [3]]]] ∧
    ((Client.response Client.commit b2).map fun x => x.1.2.topics.map fun t => t.partitions.map (·.errorCode)) = some [[0, 3]] := by
  obtain ⟨t0, h⟩ := called_run 4 posting.call _ rfl
  have x1 := exchange_of_play h 0 12 askFetch 7 askFetch_wf (by decide +kernel)
  obtain ⟨t2, h2⟩ := seq2_run
  have x2 := exchange_of_play h2 0 7 askCommit 8 askCommit_wf (by decide +kernel)
  refine ⟨_, _, .post posting_run (onlyBy_of (by decide +kernel)) (.idle (taking_run 0 askFetch 7 _) (unchanged_of (by decide +kernel))
    (.request x1 (onlyBy_of (by decide +kernel)) (sized_of (by decide +kernel) (by decide +kernel) (by decide +kernel))
    (.idle (stateAfter_run [.conn 0] _) (unchanged_of (by decide +kernel)) (.idle (taking_run 0 askCommit 8 _) (unchanged_of (by decide +kernel))
    (.request x2 (onlyBy_of (by decide +kernel)) (sized_of (by decide +kernel) (by decide +kernel) (by decide +kernel)) (.nil _)))))), ?_, ?_⟩
  · decide +kernel
  · decide +kernel

/-- The data at the end: both records and the committed offset, as the machine says. -/
example : (((data seq3).log [116] 0).map fun l => l.map (·.value)) = some [some [1, 2], some [3]] ∧ (data seq3).offset [116] 0 [103] = 1 ∧
    (((data oneRecord).log [116] 0).map fun l => l.map (·.value)) = some [some [1, 2]] ∧ (data oneRecord).offset [116] 0 [103] = 0 := by decide +kernel

/-- A reset, and a new partition. -/
example : (∃ tr s, CallRun oneRecord 0 (.setConsumerGroupOffset [116] 0 [103] 5) tr s ∧ OnlyBy (.caller 0) tr ∧ (data s).offset [116] 0 [103] = 5) ∧
    ∃ tr s, CallRun oneRecord 0 (.createPartitionTopics 1 [[116], [117]]) tr s ∧ OnlyBy (.caller 0) tr ∧ ((data s).log [117] 1).isSome = true ∧ ((data oneRecord).log [117] 1).isSome = false :=
  ⟨⟨_, _, callRun_of_play 0 3 _ _ rfl rfl (by decide +kernel) rfl, onlyBy_of (by decide +kernel), by decide +kernel⟩,
   ⟨_, _, callRun_of_play 0 4 _ _ rfl rfl (by decide +kernel) rfl, onlyBy_of (by decide +kernel), by decide +kernel, by decide +kernel⟩⟩

end KM.Props
