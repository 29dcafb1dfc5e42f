import Verif.Bare
import Verif.Refine
import Verif.LifeSim
/-
Runs without clients that change nothing: whatever happens in a run of the mock happens also when some clients that send no OffsetCommit request say nothing at all.
-/
namespace KM

/-! ### The data -/

/-- What can be seen of a partition: not whether a group has an entry for its offset, or reads as 0 without one. -/
structure Sight where
  index : I32
  errorCode : I16
  records : List Record
  metadata : Option Bytes
  offset : Bytes → I64

def Partition.sight (kp : Partition) : Sight := ⟨kp.index, kp.errorCode, kp.records, kp.metadata, fun g => (GoMap.get kp.committed g).getD 0⟩

def Topic.sight (kt : Topic) : List (I32 × Sight) := kt.map fun f => (f.1, f.2.sight)

def Store.sight (ds : Store) : List (Bytes × List (I32 × Sight)) := ds.map fun e => (e.1, Topic.sight e.2)

theorem sight_get (ds : Store) (t : Bytes) : GoMap.get ds.sight t = (GoMap.get ds t).map Topic.sight := get_mapSnd ds Topic.sight t
theorem sight_set (ds : Store) (t : Bytes) (kt : Topic) : Store.sight (GoMap.set ds t kt) = GoMap.set ds.sight t (Topic.sight kt) := set_mapSnd ds Topic.sight t kt
theorem sight_getPart (kt : Topic) (p : I32) : GoMap.get (Topic.sight kt) p = (GoMap.get kt p).map Partition.sight := get_mapSnd kt Partition.sight p
theorem sight_setPart (kt : Topic) (p : I32) (kp : Partition) : Topic.sight (GoMap.set kt p kp) = GoMap.set (Topic.sight kt) p kp.sight := set_mapSnd kt Partition.sight p kp

theorem sight_createTopic {ds ds' : Store} (h : ds.sight = ds'.sight) (t : Bytes) : (ds.createTopic t).sight = (ds'.createTopic t).sight := by
  have hg := congrArg (fun x => GoMap.get x t) h
  simp only [sight_get] at hg
  unfold Store.createTopic
  cases h1 : GoMap.get ds t <;> cases h2 : GoMap.get ds' t <;> rw [h1, h2] at hg <;> first | exact h | (cases hg; done) | skip
  simp only [sight_set, h]

theorem sight_createPartition {ds ds' : Store} (h : ds.sight = ds'.sight) (t : Bytes) (p : I32) : (ds.createPartition t p).sight = (ds'.createPartition t p).sight := by
  have hg := congrArg (fun x => GoMap.get x t) h
  simp only [sight_get] at hg
  unfold Store.createPartition
  cases h1 : GoMap.get ds t with
  | none =>
    cases h2 : GoMap.get ds' t with
    | none => exact h
    | some kt' => rw [h1, h2] at hg; cases hg
  | some kt =>
    cases h2 : GoMap.get ds' t with
    | none => rw [h1, h2] at hg; cases hg
    | some kt' =>
      rw [h1, h2] at hg
      have hg : Topic.sight kt = Topic.sight kt' := Option.some.inj hg
      have hp := congrArg (fun x => GoMap.get x p) hg
      simp only [sight_getPart] at hp
      dsimp only
      cases h3 : GoMap.get kt p <;> cases h4 : GoMap.get kt' p <;> rw [h3, h4] at hp <;> first | exact h | (cases hp; done) | skip
      simp only [sight_set, sight_setPart, h, hg]

theorem sight_part (ds : Store) (t : Bytes) (p : I32) : (ds.part? t p).map Partition.sight = (GoMap.get ds.sight t).bind fun kt => GoMap.get kt p := by
  rw [sight_get]
  unfold Store.part?
  cases GoMap.get ds t with
  | none => rfl
  | some kt => exact (sight_getPart kt p).symm

theorem sight_parts {ds ds' : Store} (h : ds.sight = ds'.sight) (t : Bytes) (p : I32) : (ds.part? t p).map Partition.sight = (ds'.part? t p).map Partition.sight := by
  rw [sight_part, sight_part, h]

theorem sight_updPart {ds ds' : Store} (h : ds.sight = ds'.sight) (t : Bytes) (p : I32) {f : Partition → Partition} (hf : ∀ kp kp' : Partition, kp.sight = kp'.sight → (f kp).sight = (f kp').sight) :
    (ds.updPart t p f).sight = (ds'.updPart t p f).sight := by
  have hg := congrArg (fun x => GoMap.get x t) h
  simp only [sight_get] at hg
  unfold Store.updPart
  cases h1 : GoMap.get ds t with
  | none =>
    cases h2 : GoMap.get ds' t with
    | none => exact h
    | some kt' => rw [h1, h2] at hg; cases hg
  | some kt =>
    cases h2 : GoMap.get ds' t with
    | none => rw [h1, h2] at hg; cases hg
    | some kt' =>
      rw [h1, h2] at hg
      have hg : Topic.sight kt = Topic.sight kt' := Option.some.inj hg
      have hp := congrArg (fun x => GoMap.get x p) hg
      simp only [sight_getPart] at hp
      dsimp only
      cases h3 : GoMap.get kt p <;> cases h4 : GoMap.get kt' p <;> rw [h3, h4] at hp <;> first | exact h | (cases hp) | skip
      simp only [sight_set, sight_setPart, h, hg, hf _ _ (Option.some.inj hp)]

theorem set_same {κ α : Type} [DecidableEq κ] {m : List (κ × α)} {k : κ} {v : α} (h : GoMap.get m k = some v) : GoMap.set m k v = m := by
  induction m with
  | nil => cases h
  | cons e m ih =>
    simp only [GoMap.get] at h
    simp only [GoMap.set]
    split at h
    · next e' => cases h; rw [if_pos e']; cases e; cases e'; rfl
    · next e' => rw [if_neg e', ih h]

/-- The first look at the offset of a group changes nothing that can be seen. -/
theorem sight_touch (ds : Store) (t : Bytes) (p : I32) (g : Bytes) : (ds.updPart t p (Store.touchGroup · g)).sight = ds.sight := by
  have hk : ∀ kp : Partition, (Store.touchGroup kp g).sight = kp.sight := by
    intro kp
    unfold Store.touchGroup
    cases h : GoMap.get kp.committed g with
    | some x => rfl
    | none =>
      unfold Partition.sight
      congr 1
      funext g'
      rw [GoMap.get_set]
      split
      · next e => subst e; rw [h]; rfl
      · rfl
  unfold Store.updPart
  cases h1 : GoMap.get ds t with
  | none => rfl
  | some kt =>
    dsimp only
    cases h2 : GoMap.get kt p with
    | none => rfl
    | some kp =>
      dsimp only
      rw [sight_set, sight_setPart, hk]
      rw [set_same (v := kp.sight) (by rw [sight_getPart, h2]; rfl), set_same (by rw [sight_get, h1]; rfl)]

/-- The same can be seen, at the same time. -/
structure Seem (w w' : World) : Prop where
  ds : w.ds.sight = w'.ds.sight
  clock : w.clock = w'.clock
  cancelled : w.cancelled = w'.cancelled

/-- An action does the same, with the same result, where the same can be seen. -/
theorem Act.step_sight {a : Act} {w w1 w' : World} {r : a.Resp} (h : a.step w r w1) (hs : Seem w w') : ∃ w1', a.step w' r w1' ∧ Seem w1 w1' := by
  obtain ⟨ds, clock, can⟩ := w
  obtain ⟨ds', clock', can'⟩ := w'
  obtain ⟨hd, h2, h3⟩ := hs
  dsimp only at hd h2 h3
  subst h2 h3
  have hp := sight_parts hd
  have part : ∀ {t p kp}, ds.part? t p = some kp → ∃ kp', ds'.part? t p = some kp' ∧ kp.sight = kp'.sight := by
    intro t p kp h1
    have := hp t p
    rw [h1] at this
    cases h2 : ds'.part? t p with
    | none => rw [h2] at this; cases this
    | some kp' => rw [h2] at this; exact ⟨kp', rfl, Option.some.inj this⟩
  have is : ∀ {t p}, (ds.part? t p).isSome → (ds'.part? t p).isSome := by
    intro t p h1
    obtain ⟨kp, h1⟩ := Option.isSome_iff_exists.1 h1
    obtain ⟨kp', h2, _⟩ := part h1
    rw [h2]; rfl
  have hg : ∀ t, (GoMap.get ds t).map Topic.sight = (GoMap.get ds' t).map Topic.sight := fun t => by rw [← sight_get, ← sight_get, hd]
  have ist : ∀ t, (GoMap.get ds t).isSome = (GoMap.get ds' t).isSome := fun t => by
    have := congrArg Option.isSome (hg t)
    simpa using this
  cases a
  case createTopic t => cases h; exact ⟨_, rfl, sight_createTopic hd t, rfl, rfl⟩
  case getTopic t => obtain ⟨rfl, rfl⟩ := h; exact ⟨_, ⟨rfl, ist t⟩, hd, rfl, rfl⟩
  case createPartition t p =>
    obtain ⟨h1, rfl⟩ := h
    exact ⟨_, ⟨by rw [← ist t]; exact h1, rfl⟩, sight_createPartition hd t p, rfl, rfl⟩
  case getPartition t p =>
    obtain ⟨h1, rfl, rfl⟩ := h
    refine ⟨_, ⟨by rw [← ist t]; exact h1, rfl, ?_⟩, hd, rfl, rfl⟩
    have := congrArg Option.isSome (hp t p)
    simpa [Store.getPartition] using this
  case post t p x =>
    obtain ⟨h1, rfl⟩ := h
    refine ⟨_, ⟨is h1, rfl⟩, sight_updPart hd t p ?_, rfl, rfl⟩
    intro kp kp' e
    simp only [Partition.sight, Sight.mk.injEq, Store.postRecord] at e ⊢
    obtain ⟨e1, e2, e3, e4, e5⟩ := e
    exact ⟨e1, e2, by rw [e3], e4, e5⟩
  case commit t p g o =>
    obtain ⟨h1, rfl⟩ := h
    refine ⟨_, ⟨is h1, rfl⟩, sight_updPart hd t p ?_, rfl, rfl⟩
    intro kp kp' e
    have e0 := e
    simp only [Partition.sight, Sight.mk.injEq] at e
    obtain ⟨e1, e2, e3, e4, e5⟩ := e
    have e6 := congrFun e5 g
    unfold Store.commitOffset
    dsimp only at e6 ⊢
    rw [e6]
    split
    · simp only [Partition.sight, Sight.mk.injEq]
      refine ⟨e1, e2, e3, e4, ?_⟩
      funext g'
      rw [GoMap.get_set, GoMap.get_set]
      split
      · rfl
      · exact congrFun e5 g'
    · exact e0
  case groupCommitted t p g =>
    obtain ⟨kp, h1, rfl, rfl⟩ := h
    obtain ⟨kp', h2, e⟩ := part h1
    refine ⟨_, ⟨kp', h2, ?_, rfl⟩, ?_, rfl, rfl⟩
    · exact congrFun (congrArg Sight.offset e) g
    · show (Store.updPart ds t p _).sight = (Store.updPart ds' t p _).sight
      rw [sight_touch, sight_touch]; exact hd
  case setOffset t p g o =>
    obtain ⟨h1, rfl⟩ := h
    refine ⟨_, ⟨is h1, rfl⟩, sight_updPart hd t p ?_, rfl, rfl⟩
    intro kp kp' e
    simp only [Partition.sight, Sight.mk.injEq, Store.setOffset] at e ⊢
    obtain ⟨e1, e2, e3, e4, e5⟩ := e
    refine ⟨e1, e2, e3, e4, ?_⟩
    funext g'
    rw [GoMap.get_set, GoMap.get_set]
    split
    · rfl
    · exact congrFun e5 g'
  case partInfo t p =>
    obtain ⟨kp, h1, rfl, rfl⟩ := h
    obtain ⟨kp', h2, e⟩ := part h1
    refine ⟨_, ⟨kp', h2, ?_, rfl⟩, hd, rfl, rfl⟩
    rw [show kp.index = kp'.index from congrArg Sight.index e, show kp.errorCode = kp'.errorCode from congrArg Sight.errorCode e, show kp.metadata = kp'.metadata from congrArg Sight.metadata e]
  case numRecords t p =>
    obtain ⟨kp, h1, rfl, rfl⟩ := h
    obtain ⟨kp', h2, e⟩ := part h1
    exact ⟨_, ⟨kp', h2, by rw [show kp.records = kp'.records from congrArg Sight.records e], rfl⟩, hd, rfl, rfl⟩
  case recordAt t p i =>
    obtain ⟨kp, h1, rfl, rfl⟩ := h
    obtain ⟨kp', h2, e⟩ := part h1
    exact ⟨_, ⟨kp', h2, rfl, by rw [show kp.records = kp'.records from congrArg Sight.records e]⟩, hd, rfl, rfl⟩
  case fetchRecord t p i =>
    obtain ⟨kp, h1, rfl, rfl⟩ := h
    obtain ⟨kp', h2, e⟩ := part h1
    exact ⟨_, ⟨kp', h2, rfl, by rw [show kp.records = kp'.records from congrArg Sight.records e]⟩, hd, rfl, rfl⟩
  case rangeTopics =>
    obtain ⟨rfl, h1⟩ := h
    refine ⟨_, ⟨rfl, ?_⟩, hd, rfl, rfl⟩
    have : GoMap.keys ds = GoMap.keys ds' := by
      have := congrArg (List.map Prod.fst) hd
      simpa [Store.sight, GoMap.keys, List.map_map, Function.comp_def] using this
    rw [← this]; exact h1
  case rangePartitions t =>
    obtain ⟨rfl, kt, h1, h2⟩ := h
    have := hg t
    rw [h1] at this
    cases h3 : GoMap.get ds' t with
    | none => rw [h3] at this; cases this
    | some kt' =>
      rw [h3] at this
      refine ⟨_, ⟨rfl, kt', h3, ?_⟩, hd, rfl, rfl⟩
      have := congrArg (List.map fun x : I32 × Sight => x.2.index) (Option.some.inj this)
      simp only [Topic.sight, List.map_map, Function.comp_def, Partition.sight] at this
      rw [← this]; exact h2
  case sleep d => obtain ⟨c, h1, rfl⟩ := h; exact ⟨_, ⟨c, h1, rfl⟩, hd, rfl, rfl⟩
  case tick d => cases h; exact ⟨_, rfl, hd, rfl, rfl⟩
  case cancel => cases h; exact ⟨_, rfl, hd, rfl, rfl⟩
  case recv => obtain ⟨rfl, h⟩ := h; exact ⟨_, ⟨rfl, h⟩, hd, rfl, rfl⟩
  case order => obtain ⟨rfl, h⟩ := h; exact ⟨_, ⟨rfl, h⟩, hd, rfl, rfl⟩
  case orderInt => obtain ⟨rfl, h⟩ := h; exact ⟨_, ⟨rfl, h⟩, hd, rfl, rfl⟩
  case orderHeaders => obtain ⟨rfl, h⟩ := h; exact ⟨_, ⟨rfl, h⟩, hd, rfl, rfl⟩
  case now => obtain ⟨rfl, h⟩ := h; exact ⟨_, ⟨rfl, h⟩, hd, rfl, rfl⟩
  case isDone => obtain ⟨rfl, h⟩ := h; exact ⟨_, ⟨rfl, h⟩, hd, rfl, rfl⟩
  all_goals (cases h; exact ⟨_, rfl, hd, rfl, rfl⟩)

/-- What changes nothing that can be seen, but that time may pass. -/
theorem Act.step_idle {a : Act} {w w1 : World} {r : a.Resp} (h : a.step w r w1) (ha : NoEffect a) (hc : a ≠ .cancel) :
    w1.ds.sight = w.ds.sight ∧ w.clock ≤ w1.clock ∧ w1.cancelled = w.cancelled := by
  refine ⟨?_, step_clock h, ?_⟩
  · rcases ha with ha | ⟨t, p, g, rfl⟩
    · rw [step_same h ha]
    · obtain ⟨kp, _, _, rfl⟩ := h
      exact sight_touch ..
  · by_cases hi : a = .isDone
    · subst hi; rw [h.1]
    · exact (step_flag h hi hc true).2

theorem handle_noCancel (sv : Server) : (handle sv).Only (· ≠ .cancel) := by
  refine ⟨fun inbound => ?_, fun _ => trivial⟩
  unfold handleBody
  split
  · trivial
  · refine ⟨nofun, fun d => ?_⟩
    dsimp only
    split
    · exact ⟨nofun, fun _ => trivial⟩
    · refine ⟨nofun, fun r => ?_⟩
      cases r <;> first | trivial | exact ⟨nofun, fun _ => trivial⟩
  · next msg _ =>
    refine ⟨nofun, fun _ => Prog.Only.bind ?_ fun res => ⟨nofun, fun _ => by cases res <;> trivial⟩⟩
    unfold dispatcher
    split
    · trivial
    · trivial
    · dsimp only
      split
      · trivial
      · trivial
      · split
        · trivial
        · refine ((handler_socket sv _ _).mono fun a h e => by subst e; cases h).bind fun h => ?_
          unfold finish
          split
          · trivial
          · split
            · trivial
            · split
              · trivial
              · have hf : sendFailed.Only (· ≠ .cancel) := ⟨nofun, fun _ => trivial⟩
                refine ⟨nofun, fun ok1 => ?_⟩
                dsimp only
                split
                · refine ⟨nofun, fun ok2 => ?_⟩
                  dsimp only
                  split
                  · refine ⟨nofun, fun ok3 => ?_⟩
                    dsimp only
                    split
                    · trivial
                    · exact hf
                  · exact hf
                · exact hf

/-! ### The mock -/

/-- Connection `c` of a client that says nothing waits at the beginning of its loop, until it ends. -/
def hush (Q : Nat → Bool) (sv : Server) (c : Nat) (k : ConnG) : ConnG :=
  match k.pc with
  | .body _ => if Q c then { k with pc := .body (handle sv) } else k
  | _ => k

/-- The mock when the clients in `Q` say nothing. -/
def Sys.mute (Q : Nat → Bool) (s : Sys) (ds : Store) (done : List Nat) : Sys := { s with ds := ds, done := done, conns := s.conns.mapIdx (hush Q s.sv) }

theorem hush_gen (Q : Nat → Bool) (sv : Server) (c : Nat) (k : ConnG) : (hush Q sv c k).gen = k.gen ∧ (hush Q sv c k).num = k.num ∧ (hush Q sv c k).ctx = k.ctx := by
  unfold hush; split
  · split <;> exact ⟨rfl, rfl, rfl⟩
  · exact ⟨rfl, rfl, rfl⟩

theorem hush_out {Q : Nat → Bool} {sv : Server} {c : Nat} {k : ConnG} (h : ∀ p, k.pc = .body p → Q c = false) : hush Q sv c k = k := by
  unfold hush
  split
  · next p hp => rw [h p hp]; rfl
  · rfl

theorem mute_conns {Q : Nat → Bool} {s : Sys} {ds : Store} {d : List Nat} (c : Nat) : (s.mute Q ds d).conns[c]? = (s.conns[c]?).map (hush Q s.sv c) := by
  simp [Sys.mute]

section
variable {Q : Nat → Bool} {s t : Sys} {ds : Store} {d : List Nat}

/-- What `Sys.next` does to the cancelled contexts. -/
def SameDone (s : Sys) (d : List Nat) : Prop := ∀ x, (s.parentDone || d.contains x) = s.isDone x

theorem SameDone.cons (h : SameDone s d) (x : Nat) : SameDone { s with done := x :: s.done } (x :: d) := by
  intro y
  have := h y
  unfold Sys.isDone at this ⊢
  simp only [List.contains_cons]
  revert this
  cases s.parentDone <;> cases (y == x) <;> simp

theorem mute_apiStep {i : Nat} {c : Call} (h : s.apiStep i c = .ok t) (hd : SameDone s d) : t.ds = s.ds ∧ t.conns = s.conns ∧ t.sv = s.sv ∧ t.clock = s.clock ∧
    ∃ d', (s.mute Q ds d).apiStep i c = .ok (t.mute Q ds d') ∧ SameDone t d' := by
  have hp : (s.mute Q ds d).api i = s.api i := rfl
  unfold Sys.apiStep at h ⊢
  rw [hp]
  cases ha : s.api i with
  | idle => rw [ha] at h; cases h; exact ⟨rfl, rfl, rfl, rfl, d, rfl, hd⟩
  | panicked w => rw [ha] at h; cases h; exact ⟨rfl, rfl, rfl, rfl, d, rfl, hd⟩
  | start k r =>
    rw [ha] at h
    dsimp only at h ⊢
    cases k <;> simp only [Sys.startStep, Sys.lockMu] at h ⊢
    case lock =>
      split at h
      · next hm => cases h; exact ⟨rfl, rfl, rfl, rfl, d, by rw [if_pos (show (s.mute Q ds d).mu = none from hm)]; rfl, hd⟩
      · cases h
    case swap =>
      split at h
      · next hm => cases h; exact ⟨rfl, rfl, rfl, rfl, d, by rw [if_pos (show (s.mute Q ds d).started = true from hm)]; rfl, hd⟩
      · next hm => cases h; exact ⟨rfl, rfl, rfl, rfl, d, by rw [if_neg (show ¬ (s.mute Q ds d).started = true from hm)]; rfl, hd⟩
    all_goals (cases h; exact ⟨rfl, rfl, rfl, rfl, d, rfl, hd⟩)
  | stop k b =>
    rw [ha] at h
    dsimp only at h ⊢
    cases k <;> simp only [Sys.stopStep, Sys.lockMu] at h ⊢
    case init k =>
      cases k <;> simp only [Sys.waitStep] at h ⊢ <;> cases h <;> exact ⟨rfl, rfl, rfl, rfl, d, rfl, hd⟩
    case lock =>
      split at h
      · next hm => cases h; exact ⟨rfl, rfl, rfl, rfl, d, by rw [if_pos (show (s.mute Q ds d).mu = none from hm)]; rfl, hd⟩
      · cases h
    case close =>
      cases hl : s.listener with
      | none => rw [hl] at h; cases h; exact ⟨rfl, rfl, rfl, rfl, d, by rw [show (s.mute Q ds d).listener = none from hl]; rfl, hd⟩
      | some g => rw [hl] at h; cases h; exact ⟨rfl, rfl, rfl, rfl, d, by rw [show (s.mute Q ds d).listener = some g from hl]; rfl, hd⟩
    case cancel =>
      cases hl : s.ctx with
      | none => rw [hl] at h; cases h; exact ⟨rfl, rfl, rfl, rfl, d, by rw [show (s.mute Q ds d).ctx = none from hl]; rfl, hd⟩
      | some g => rw [hl] at h; cases h; exact ⟨rfl, rfl, rfl, rfl, g :: d, by rw [show (s.mute Q ds d).ctx = some g from hl]; rfl, hd.cons g⟩
    all_goals (cases h; exact ⟨rfl, rfl, rfl, rfl, d, rfl, hd⟩)
  | wait k r =>
    rw [ha] at h
    dsimp only at h ⊢
    cases k <;> simp only [Sys.waitStep] at h ⊢ <;> cases h <;> exact ⟨rfl, rfl, rfl, rfl, d, rfl, hd⟩
  | restartInit k =>
    rw [ha] at h
    dsimp only at h ⊢
    cases k <;> simp only [Sys.waitStep] at h ⊢ <;> cases h <;> exact ⟨rfl, rfl, rfl, rfl, d, rfl, hd⟩
  | finish =>
    rw [ha] at h
    dsimp only at h ⊢
    cases hl : s.ctx with
    | none => rw [hl] at h; cases h; exact ⟨rfl, rfl, rfl, rfl, d, by rw [show (s.mute Q ds d).ctx = none from hl]; rfl, hd⟩
    | some g => rw [hl] at h; cases h; exact ⟨rfl, rfl, rfl, rfl, g :: d, by rw [show (s.mute Q ds d).ctx = some g from hl]; rfl, hd.cons g⟩
  | call p =>
    rw [ha] at h
    cases p with
    | ret u => cases h; exact ⟨rfl, rfl, rfl, rfl, d, rfl, hd⟩
    | panic => cases h
    | act => cases h
    | loop => cases h

theorem mute_wgDone (h : s.wgDone = .ok t) : t.ds = s.ds ∧ t.conns = s.conns ∧ t.sv = s.sv ∧ t.clock = s.clock ∧ t.done = s.done ∧ t.parentDone = s.parentDone ∧ t.runs = s.runs ∧
    (s.mute Q ds d).wgDone = .ok (t.mute Q ds d) := by
  unfold Sys.wgDone at h ⊢
  rw [show (s.mute Q ds d).wg = s.wg from rfl]
  generalize s.wg = n at h ⊢
  match n, h with
  | 0, h => cases h
  | 1, h => cases h; exact ⟨rfl, rfl, rfl, rfl, rfl, rfl, rfl, rfl⟩
  | n + 2, h => cases h; exact ⟨rfl, rfl, rfl, rfl, rfl, rfl, rfl, rfl⟩

theorem mute_initDone (h : s.initDone = .ok t) : t.ds = s.ds ∧ t.conns = s.conns ∧ t.sv = s.sv ∧ t.clock = s.clock ∧ t.done = s.done ∧ t.parentDone = s.parentDone ∧ t.runs = s.runs ∧
    (s.mute Q ds d).initDone = .ok (t.mute Q ds d) := by
  unfold Sys.initDone at h ⊢
  rw [show (s.mute Q ds d).init = s.init from rfl]
  generalize s.init = n at h ⊢
  match n, h with
  | 0, h => cases h
  | 1, h => cases h; exact ⟨rfl, rfl, rfl, rfl, rfl, rfl, rfl, rfl⟩
  | n + 2, h => cases h; exact ⟨rfl, rfl, rfl, rfl, rfl, rfl, rfl, rfl⟩

theorem mute_activeDone (h : s.activeDone = .ok t) : t.ds = s.ds ∧ t.conns = s.conns ∧ t.sv = s.sv ∧ t.clock = s.clock ∧ t.done = s.done ∧ t.parentDone = s.parentDone ∧ t.runs = s.runs ∧
    (s.mute Q ds d).activeDone = .ok (t.mute Q ds d) := by
  unfold Sys.activeDone at h ⊢
  rw [show (s.mute Q ds d).active = s.active from rfl]
  generalize s.active = n at h ⊢
  match n, h with
  | 0, h => cases h
  | n + 1, h => cases h; exact ⟨rfl, rfl, rfl, rfl, rfl, rfl, rfl, rfl⟩

theorem mute_runStep {g : Nat} {ok : Bool} (h : s.runStep g ok = .ok t) (hd : SameDone s d) : t.ds = s.ds ∧ t.sv = s.sv ∧ t.clock = s.clock ∧
    (s.mute Q ds d).runStep g ok = .ok (t.mute Q ds d) ∧ SameDone t d := by
  unfold Sys.runStep at h ⊢
  rw [show (s.mute Q ds d).runs = s.runs from rfl]
  cases hr : s.runs[g]? with
  | none => rw [hr] at h; cases h
  | some r =>
    rw [hr] at h
    dsimp only at h ⊢
    cases hp : r.pc <;> rw [hp] at h <;> dsimp only at h ⊢
    case listen =>
      split at h
      · next hok => cases h; exact ⟨rfl, rfl, rfl, by rw [if_pos hok]; rfl, hd⟩
      · cases h
    case initDone =>
      cases hi : s.initDone with
      | ok u =>
        rw [hi] at h
        cases h
        obtain ⟨h1, h2, h3, h4, h5, h6, h7, h8⟩ := mute_initDone (Q := Q) (ds := ds) (d := d) hi
        refine ⟨h1, h3, h4, by rw [h8]; rfl, fun x => ?_⟩
        have := hd x
        unfold Sys.isDone at this ⊢
        show (u.parentDone || _) = (u.parentDone || u.done.contains x)
        rw [h5, h6]; exact this
      | blocked => rw [hi] at h; cases h
      | crash => rw [hi] at h; cases h
    case accept =>
      rw [show (s.mute Q ds d).closes = s.closes from rfl]
      split at h
      · next hc => cases h; exact ⟨rfl, rfl, rfl, by rw [if_pos hc]; rfl, hd⟩
      · next hc =>
        split at h
        · next hok => cases h; exact ⟨rfl, rfl, rfl, by rw [if_neg hc, if_pos hok]; rfl, hd⟩
        · cases h
    case select =>
      cases h
      have : ((s.mute Q ds d).parentDone || (s.mute Q ds d).ctx.any (s.mute Q ds d).isDone) = (s.parentDone || s.ctx.any s.isDone) := by
        show (s.parentDone || s.ctx.any _) = _
        congr 2
        funext x
        exact hd x
      exact ⟨rfl, rfl, rfl, by rw [this]; rfl, hd⟩
    case lock =>
      unfold Sys.lockMu at h ⊢
      split at h
      · next hm => cases h; exact ⟨rfl, rfl, rfl, by rw [if_pos (show (s.mute Q ds d).mu = none from hm)]; rfl, hd⟩
      · cases h
    case register =>
      cases h
      refine ⟨rfl, rfl, rfl, ?_, hd⟩
      congr 1
      unfold Sys.mute
      dsimp only
      rw [List.mapIdx_concat, List.length_mapIdx]
      congr 2
      unfold hush
      dsimp only
      split <;> rfl
    case waitActive =>
      rw [show (s.mute Q ds d).active = s.active from rfl]
      split at h
      · next hm => cases h; exact ⟨rfl, rfl, rfl, by rw [if_pos hm]; rfl, hd⟩
      · cases h
    case wgDone =>
      cases hi : s.wgDone with
      | ok u =>
        rw [hi] at h
        cases h
        obtain ⟨h1, h2, h3, h4, h5, h6, h7, h8⟩ := mute_wgDone (Q := Q) (ds := ds) (d := d) hi
        refine ⟨h1, h3, h4, by rw [h8]; rfl, fun x => ?_⟩
        have := hd x
        unfold Sys.isDone at this ⊢
        show (u.parentDone || _) = (u.parentDone || u.done.contains x)
        rw [h5, h6]; exact this
      | blocked => rw [hi] at h; cases h
      | crash => rw [hi] at h; cases h
    case ended => cases h
    all_goals (cases h; exact ⟨rfl, rfl, rfl, rfl, hd⟩)

theorem mute_setConn {c : Nat} {k : ConnG} (h : hush Q s.sv c k = k) : (s.mute Q ds d).setConn c k = (s.setConn c k).mute Q ds d := by
  unfold Sys.mute Sys.setConn
  dsimp only
  rw [List.mapIdx_set, h]

/-- The end of a connection, but for the last step of its loop. -/
theorem mute_connStep {c : Nat} {k : ConnG} (h : s.connStep c = .ok t) (hc : s.conns[c]? = some k) (hk : hush Q s.sv c k = k) (hd : SameDone s d) : t.ds = s.ds ∧ t.sv = s.sv ∧ t.clock = s.clock ∧
    (s.mute Q ds d).connStep c = .ok (t.mute Q ds d) ∧ SameDone t d := by
  have hc' : (s.mute Q ds d).conns[c]? = some k := by rw [mute_conns, hc]; exact congrArg some hk
  unfold Sys.connStep at h ⊢
  rw [hc] at h
  rw [hc']
  dsimp only at h ⊢
  have hu : ∀ {u : Sys} {k' : ConnG}, u.sv = s.sv → (∀ p, k'.pc ≠ .body p) → (u.mute Q ds d).setConn c k' = (u.setConn c k').mute Q ds d := fun _ hp => mute_setConn (hush_out fun p e => absurd e (hp p))
  cases hp : k.pc with
  | body p =>
    rw [hp] at h
    cases p with
    | ret u => cases h; exact ⟨rfl, rfl, rfl, congrArg Out.ok (hu rfl nofun), hd⟩
    | panic => cases h
    | act => cases h
    | loop => cases h
  | ended => rw [hp] at h; cases h
  | oc x =>
    rw [hp] at h
    cases x <;> dsimp only at h ⊢
    case lock =>
      unfold Sys.lockMu at h ⊢
      split at h
      · next hm => cases h; exact ⟨rfl, rfl, rfl, by rw [if_pos (show (s.mute Q ds d).mu = none from hm)]; exact congrArg Out.ok (hu (u := { s with mu := _ }) rfl nofun), hd⟩
      · cases h
    case delete =>
      rw [show (s.mute Q ds d).runs = s.runs from rfl]
      cases hr : s.runs[k.gen]? with
      | none => rw [hr] at h; cases h
      | some r => rw [hr] at h; cases h; exact ⟨rfl, rfl, rfl, congrArg Out.ok (hu (u := { s with clients := _ }) rfl nofun), hd⟩
    case active =>
      cases hi : s.activeDone with
      | ok u =>
        rw [hi] at h
        cases h
        obtain ⟨h1, h2, h3, h4, h5, h6, h7, h8⟩ := mute_activeDone (Q := Q) (ds := ds) (d := d) hi
        refine ⟨h1, h3, h4, by rw [h8]; exact congrArg Out.ok (hu h3 nofun), fun x => ?_⟩
        have := hd x
        unfold Sys.isDone at this ⊢
        show (u.parentDone || _) = (u.parentDone || u.done.contains x)
        rw [h5, h6]; exact this
      | blocked => rw [hi] at h; cases h
      | crash => rw [hi] at h; cases h
    case wg =>
      cases hi : s.wgDone with
      | ok u =>
        rw [hi] at h
        cases h
        obtain ⟨h1, h2, h3, h4, h5, h6, h7, h8⟩ := mute_wgDone (Q := Q) (ds := ds) (d := d) hi
        refine ⟨h1, h3, h4, by rw [h8]; exact congrArg Out.ok (hu h3 nofun), fun x => ?_⟩
        have := hd x
        unfold Sys.isDone at this ⊢
        show (u.parentDone || _) = (u.parentDone || u.done.contains x)
        rw [h5, h6]; exact this
      | blocked => rw [hi] at h; cases h
      | crash => rw [hi] at h; cases h
    case unlock => cases h; exact ⟨rfl, rfl, rfl, congrArg Out.ok (hu (u := { s with mu := none }) rfl nofun), hd⟩

/-- Steps of connections whose clients say nothing. -/
def hushed (Q : Nat → Bool) : SEv → Bool
  | .conn c _ _ => Q c
  | .unroll c => Q c
  | _ => false

/-- What happens instead of a step, when the clients in `Q` say nothing: time passes instead of their actions; before a connection ends, it finds that it has been told to finish or that its client has hung up. -/
inductive Muted (Q : Nat → Bool) : SEv → List SEv → Prop where
  | same {e : SEv} (h : hushed Q e = false) : Muted Q e [e]
  | act {c : Nat} {a : Act} {r : a.Resp} (h : Q c = true) (x : Nat) : Muted Q (.conn c a r) [.tick x]
  | unroll {c : Nat} (h : Q c = true) : Muted Q (.unroll c) []
  | told {c : Nat} (h : Q c = true) : Muted Q (.life (.conn c)) [.unroll c, .conn c .isDone true, .conn c .close (), .life (.conn c)]
  | hung {c : Nat} (h : Q c = true) : Muted Q (.life (.conn c)) [.unroll c, .conn c .isDone false, .conn c .recv .closed, .life (.conn c)]

theorem setConn_twice (s : Sys) (c : Nat) (k k' : ConnG) : (s.setConn c k).setConn c k' = s.setConn c k' := by
  unfold Sys.setConn
  dsimp only
  rw [List.set_set]

theorem setConn_get {s : Sys} {c : Nat} {k : ConnG} (k' : ConnG) (h : s.conns[c]? = some k) : (s.setConn c k').conns[c]? = some k' :=
  List.getElem?_set_self (List.getElem?_eq_some_iff.1 h).1

theorem handle_unroll (sv : Server) : Prog.unroll ([] : Bytes) (handleBody sv) Prog.ret = .act .isDone fun d => if d then .act .close fun _ => .ret () else .act .recv fun
    | .timeout => handle sv
    | .closed => .ret ()
    | .failed => .panic
    | .data b => .act .isStopping fun s => .loop (if s then [] else [] ++ b) (handleBody sv) .ret := by
  unfold Prog.unroll
  rw [show handleBody sv [] = .act .isDone fun d =>
      if d then .act .close fun _ => .ret (.inr ())
      else .act .recv fun
        | .timeout => .ret (.inl [])
        | .closed => .ret (.inr ())
        | .failed => .panic
        | .data b => .act .isStopping fun s => .ret (.inl (if s then [] else [] ++ b)) from rfl]
  simp only [Prog.bind_act]
  congr 1
  funext d
  cases d
  · simp only [Bool.false_eq_true, if_false, Prog.bind_act]
    congr 1
    funext r
    cases r <;> rfl
  · rfl

/-- A connection whose client has said nothing can end its loop. -/
theorem silent_ends {u : Sys} {c : Nat} {k : ConnG} (hc : u.conns[c]? = some k) (hp : k.pc = .body (handle u.sv)) :
    ∃ es D, (es = [.unroll c, .conn c .isDone true, .conn c .close ()] ∨ es = [.unroll c, .conn c .isDone false, .conn c .recv .closed]) ∧
      Sys.Run u es (({ u with done := D } : Sys).setConn c { k with pc := .body (.ret ()) }) ∧ ∀ x, ({ u with done := D } : Sys).isDone x = u.isDone x := by
  have e1 := Sys.Step.unroll hc hp
  rw [handle_unroll] at e1
  generalize hF : (fun d : Bool => if d then (Prog.act .close fun _ => .ret () : Prog Unit) else .act .recv fun
    | .timeout => handle u.sv
    | .closed => .ret ()
    | .failed => .panic
    | .data b => .act .isStopping fun s => .loop (if s then [] else [] ++ b) (handleBody u.sv) .ret) = F at e1
  -- an action that leaves everything as it is
  have idle : ∀ {D : List Nat} {a : Act} {f : a.Resp → Prog Unit} {r : a.Resp}, (∀ x, ({ u with done := D } : Sys).isDone x = u.isDone x) → (∀ w : World, w.cancelled = u.isDone k.ctx → a.step w r w) →
      ∃ D', Sys.Step (({ u with done := D } : Sys).setConn c { k with pc := .body (.act a f) }) (.conn c a r) (({ u with done := D' } : Sys).setConn c { k with pc := .body (f r) }) ∧
        ∀ x, ({ u with done := D' } : Sys).isDone x = u.isDone x := by
    intro D a f r hD ha
    have hx := setConn_get (s := { u with done := D }) { k with pc := .body (.act a f) } hc
    have hst := Sys.Step.conn (k := { k with pc := .body (.act a f) }) hx rfl (ha ((({ u with done := D } : Sys).setConn c { k with pc := .body (.act a f) }).view k.ctx) (hD k.ctx))
    refine ⟨if ({ u with done := D } : Sys).isDone k.ctx then k.ctx :: D else D, ?_, fun x => ?_⟩
    · have : ((({ u with done := D } : Sys).setConn c { k with pc := .body (.act a f) }).setView k.ctx ((({ u with done := D } : Sys).setConn c { k with pc := .body (.act a f) }).view k.ctx)).setConn c
          { k with pc := .body (f r) } = ({ u with done := if ({ u with done := D } : Sys).isDone k.ctx then k.ctx :: D else D } : Sys).setConn c { k with pc := .body (f r) } := by
        unfold Sys.setView Sys.setConn
        dsimp only
        rw [List.set_set]
        rfl
      rw [← this]
      exact hst
    · exact (isDone_setView (s := { u with done := D }) (w := ({ u with done := D } : Sys).view k.ctx) (x := k.ctx) rfl).trans (hD x)
  obtain ⟨D1, e2, i1⟩ := idle (D := u.done) (a := .isDone) (f := F) (r := u.isDone k.ctx) (fun _ => rfl) fun w hw => ⟨rfl, hw.symm⟩
  cases hx : u.isDone k.ctx with
  | true =>
    rw [hx, ← hF] at e2
    obtain ⟨D2, e3, i2⟩ := idle (D := D1) (a := .close) (f := fun _ => .ret ()) (r := ()) i1 fun w hw => rfl
    refine ⟨_, D2, .inl rfl, .cons e1 (.cons ?_ (.cons e3 (.nil _))), i2⟩
    rw [← hF]; exact e2
  | false =>
    rw [hx, ← hF] at e2
    obtain ⟨D2, e3, i2⟩ := idle (D := D1) (a := .recv) (f := fun
      | .timeout => handle u.sv
      | .closed => .ret ()
      | .failed => .panic
      | .data b => .act .isStopping fun s => .loop (if s then [] else [] ++ b) (handleBody u.sv) .ret) (r := .closed) i1 fun w hw => ⟨rfl, nofun⟩
    refine ⟨_, D2, .inr rfl, .cons e1 (.cons ?_ (.cons e3 (.nil _))), i2⟩
    rw [← hF]; exact e2

theorem mute_step {e : SEv} (h : Sys.Step s e t) (hQ : ∀ c a r, e = .conn c a r → Q c = true → NoEffect a ∧ a ≠ .cancel) (hs : s.ds.sight = ds.sight) (hd : SameDone s d) :
    ∃ es ds' d', Muted Q e es ∧ Sys.Run (s.mute Q ds d) es (t.mute Q ds' d') ∧ t.ds.sight = ds'.sight ∧ SameDone t d' := by
  have seem : ∀ ctx, Seem (s.view ctx) ((s.mute Q ds d).view ctx) := fun ctx => ⟨hs, rfl, (hd ctx).symm⟩
  cases h with
  | @life _ c h =>
    cases c with
    | api i c =>
      obtain ⟨h1, _, _, _, d', h2, h3⟩ := mute_apiStep (Q := Q) (ds := ds) h hd
      exact ⟨_, ds, d', .same rfl, .cons (.life h2) (.nil _), by rw [h1]; exact hs, h3⟩
    | run g ok =>
      obtain ⟨h1, _, _, h2, h3⟩ := mute_runStep (Q := Q) (ds := ds) h hd
      exact ⟨_, ds, d, .same rfl, .cons (.life h2) (.nil _), by rw [h1]; exact hs, h3⟩
    | parentCancel =>
      cases h
      exact ⟨_, ds, d, .same rfl, .cons (.life rfl) (.nil _), hs, fun x => rfl⟩
    | conn c =>
      have h : s.connStep c = .ok t := h
      cases hc : s.conns[c]? with
      | none => unfold Sys.connStep at h; rw [hc] at h; cases h
      | some k =>
        by_cases hk : ∀ p, k.pc = .body p → Q c = false
        · obtain ⟨h1, _, _, h2, h3⟩ := mute_connStep (Q := Q) (ds := ds) h hc (hush_out hk) hd
          exact ⟨_, ds, d, .same rfl, .cons (.life h2) (.nil _), by rw [h1]; exact hs, h3⟩
        · obtain ⟨p, hk⟩ := Classical.not_forall.1 hk
          obtain ⟨hp, hq⟩ := Classical.not_imp.1 hk
          have hq : Q c = true := by simpa using hq
          have ht : t = s.setConn c { k with pc := .oc .lock } := by
            unfold Sys.connStep at h
            rw [hc] at h
            dsimp only at h
            rw [hp] at h
            cases p with
            | ret u => cases h; rfl
            | panic => cases h
            | act => cases h
            | loop => cases h
          subst ht
          have hc0 : (s.mute Q ds d).conns[c]? = some { k with pc := .body (handle s.sv) } := by
            rw [mute_conns, hc]
            unfold hush
            simp [hp, hq]
          obtain ⟨es, D, h1, h2, h3⟩ := silent_ends hc0 rfl
          have h4 : ((({ s.mute Q ds d with done := D } : Sys).setConn c { k with pc := .body (.ret ()) }).connStep c) = .ok ((s.setConn c { k with pc := .oc .lock }).mute Q ds D) := by
            unfold Sys.connStep
            rw [setConn_get (s := { s.mute Q ds d with done := D }) _ hc0]
            show Out.ok (Sys.setConn (Sys.setConn _ _ _) _ _) = _
            rw [setConn_twice]
            exact congrArg Out.ok (mute_setConn (s := s) (d := D) (hush_out nofun))
          refine ⟨es ++ [.life (.conn c)], ds, D, ?_, h2.append (.cons (.life (c := .conn c) h4) (.nil _)), hs, fun x => ?_⟩
          · rcases h1 with rfl | rfl
            · exact .told hq
            · exact .hung hq
          · exact (h3 x).trans (hd x)
  | @conn c k a f r w hc hp ha =>
    cases hq : Q c with
    | false =>
      have hk : ∀ p, hush Q s.sv c { k with pc := .body p } = { k with pc := .body p } := fun p => hush_out fun _ _ => hq
      have hc0 : (s.mute Q ds d).conns[c]? = some k := by
        rw [mute_conns, hc]
        exact congrArg some (hush_out fun _ _ => hq)
      obtain ⟨w', h1, h2⟩ := Act.step_sight ha (seem k.ctx)
      refine ⟨_, w'.ds, if w'.cancelled then k.ctx :: d else d, .same hq, .cons (.conn hc0 hp h1) ?_, h2.ds, ?_⟩
      · have : ((s.mute Q ds d).setView k.ctx w').setConn c { k with pc := .body (f r) } = ((s.setView k.ctx w).setConn c { k with pc := .body (f r) }).mute Q w'.ds (if w'.cancelled then k.ctx :: d else d) := by
          rw [← mute_setConn (s := s.setView k.ctx w) (hk _)]
          unfold Sys.setView Sys.mute
          rw [h2.clock]
        rw [this]; exact .nil _
      · rw [← h2.cancelled]
        show SameDone (s.setView k.ctx w) _
        unfold Sys.setView
        split
        · exact hd.cons k.ctx
        · exact hd
    | true =>
      obtain ⟨h1, h2⟩ := hQ c a r rfl hq
      obtain ⟨i1, i2, i3⟩ := Act.step_idle ha h1 h2
      refine ⟨_, ds, d, .act hq (w.clock - s.clock).toNat, .cons (.tick _) ?_, i1.trans hs, ?_⟩
      · have : ({ s.mute Q ds d with clock := s.clock + ((w.clock - s.clock).toNat : Nat) } : Sys) = ((s.setView k.ctx w).setConn c { k with pc := .body (f r) }).mute Q ds d := by
          unfold Sys.mute Sys.setView Sys.setConn
          dsimp only
          rw [List.mapIdx_set]
          congr 1
          · symm
            refine List.ext_getElem? fun x => ?_
            rw [List.getElem?_set]
            split
            · next e =>
              subst e
              simp only [List.length_mapIdx, (List.getElem?_eq_some_iff.1 hc).1, if_true, List.getElem?_mapIdx, hc, Option.map_some, hush, hp, hq]
            · rfl
          · have : s.clock ≤ w.clock := i2
            omega
        show Sys.Run ({ s.mute Q ds d with clock := s.clock + ((w.clock - s.clock).toNat : Nat) } : Sys) [] _
        rw [this]; exact .nil _
      · intro x
        have := isDone_setView (ctx := x) i3
        exact (hd x).trans this.symm
  | @unroll c k σ β x body f hc hp =>
    cases hq : Q c with
    | false =>
      have hc0 : (s.mute Q ds d).conns[c]? = some k := by
        rw [mute_conns, hc]
        exact congrArg some (hush_out fun _ _ => hq)
      refine ⟨_, ds, d, .same hq, .cons (.unroll hc0 hp) ?_, hs, hd⟩
      rw [mute_setConn (hush_out fun _ _ => hq)]; exact .nil _
    | true =>
      refine ⟨_, ds, d, .unroll hq, ?_, hs, hd⟩
      have : s.mute Q ds d = (s.setConn c { k with pc := .body (Prog.unroll x body f) }).mute Q ds d := by
        unfold Sys.mute Sys.setConn
        dsimp only
        rw [List.mapIdx_set]
        congr 1
        symm
        refine List.ext_getElem? fun x => ?_
        rw [List.getElem?_set]
        split
        · next e =>
          subst e
          simp only [List.length_mapIdx, (List.getElem?_eq_some_iff.1 hc).1, if_true, List.getElem?_mapIdx, hc, Option.map_some, hush, hp, hq]
        · rfl
      rw [← this]; exact .nil _
  | @call i a f r w hp ha =>
    obtain ⟨w', h1, h2⟩ := Act.step_sight ha (seem 0)
    refine ⟨_, w'.ds, d, .same rfl, .cons (.call (s := s.mute Q ds d) hp h1) ?_, h2.ds, hd⟩
    have : (({ s.mute Q ds d with ds := w'.ds, clock := w'.clock } : Sys).setApi i (.call (f r))) = (({ s with ds := w.ds, clock := w.clock } : Sys).setApi i (.call (f r))).mute Q w'.ds d := by
      unfold Sys.mute Sys.setApi
      rw [h2.clock]
    rw [this]; exact .nil _
  | tick x => exact ⟨_, ds, d, .same rfl, .cons (.tick x) (.nil _), hs, hd⟩

end

end KM
