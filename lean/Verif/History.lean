import Verif.Prog
import Verif.TestApi
import Verif.Spec.History
/-
Refinement: the store's contents are the functions of the history given in `Spec/History`.
-/
namespace KM

/-- An effect of the model's actions. -/
abbrev Eff := Spec.Effect Bytes I32 Bytes Record

/-- The observable effect of an action, if any. -/
def Act.effect : Act → Option Eff
  | .post t p r => some (.post t p r)
  | .commit t p g o => some (.commit t p g o.toInt)
  | .setOffset t p g o => some (.reset t p g o.toInt)
  | _ => none

/-- The effects of a sequence of events, in order. -/
def effects (tr : List Ev) : List Eff := tr.filterMap fun e => e.act.effect

/-- The records of a partition (none if it does not exist). -/
def World.log (w : World) (t : Bytes) (p : I32) : List Record := ((w.ds.part? t p).map (·.records)).getD []

/-- The committed offset of a group (0 if it never committed). -/
def World.committed (w : World) (t : Bytes) (p : I32) (g : Bytes) : I64 :=
  (((w.ds.part? t p).bind fun kp => GoMap.get kp.committed g)).getD 0

/-- Whether a partition exists. -/
def World.hasPartition (w : World) (t : Bytes) (p : I32) : Prop := (w.ds.part? t p).isSome

/-- Whether a topic exists. -/
def World.hasTopic (w : World) (t : Bytes) : Prop := (GoMap.get w.ds t).isSome

namespace Spec
variable {T P G R : Type} [DecidableEq T] [DecidableEq P] [DecidableEq G]

theorem posts_append (h1 h2 : List (Effect T P G R)) (t : T) (p : P) : posts (h1 ++ h2) t p = posts h1 t p ++ posts h2 t p := by
  induction h1 with
  | nil => rfl
  | cons e h1 ih =>
    cases e <;> simp only [List.cons_append, posts, ih]
    split <;> simp

theorem committedFrom_append (c : Int) (h1 h2 : List (Effect T P G R)) (t : T) (p : P) (g : G) :
    committedFrom c (h1 ++ h2) t p g = committedFrom (committedFrom c h1 t p g) h2 t p g := by
  induction h1 generalizing c with
  | nil => rfl
  | cons e h1 ih => cases e <;> simp only [List.cons_append, committedFrom, ih]

end Spec

theorem effects_append (a b : List Ev) : effects (a ++ b) = effects a ++ effects b := List.filterMap_append ..

theorem effects_cons (e : Ev) (es : List Ev) : effects (e :: es) = e.act.effect.toList ++ effects es := by
  unfold effects
  rw [List.filterMap_cons]
  cases e.act.effect <;> rfl

/-! ### One action -/

theorem World.log_eq {w w' : World} {t : Bytes} {p : I32} (h : w'.ds.part? t p = w.ds.part? t p) : w'.log t p = w.log t p := by
  simp [World.log, h]

theorem part?_none_of_topic_none {ds : Store} {t : Bytes} (h : GoMap.get ds t = none) (p : I32) : ds.part? t p = none := by
  simp [Store.part?, h]

theorem step_part {a : Act} {w w' : World} {r : a.Resp} (h : a.step w r w') (t : Bytes) (p : I32) :
    (w'.ds.part? t p = w.ds.part? t p) ∨
    (w.ds.part? t p = none ∧ w'.ds.part? t p = some (Store.newPartition p) ∧ a = .createPartition t p) ∨
    (∃ kp, w.ds.part? t p = some kp ∧
      ((∃ rec, a = .post t p rec ∧ w'.ds.part? t p = some (Store.postRecord kp rec)) ∨
       (∃ g o, a = .commit t p g o ∧ w'.ds.part? t p = some (Store.commitOffset kp g o)) ∨
       (∃ g, a = .groupCommitted t p g ∧ w'.ds.part? t p = some (Store.touchGroup kp g)) ∨
       (∃ g o, a = .setOffset t p g o ∧ w'.ds.part? t p = some (Store.setOffset kp g o)))) := by
  cases a <;> simp only [Act.step] at h
  case createTopic t' => subst h; left; exact Store.part?_createTopic ..
  case createPartition t' p' =>
    obtain ⟨h1, rfl⟩ := h
    simp only [World.withDs]
    rw [Store.part?_createPartition _ _ _ _ _ h1]
    by_cases e : t' = t ∧ p' = p
    · obtain ⟨rfl, rfl⟩ := e
      rw [if_pos ⟨rfl, rfl⟩]
      cases hp : w.ds.part? t' p' with
      | none => right; left; simp
      | some kp => left; simp
    · left; rw [if_neg e]
  case post t' p' rec =>
    obtain ⟨h1, rfl⟩ := h
    simp only [World.withDs, Store.part?_updPart]
    by_cases e : t' = t ∧ p' = p
    · obtain ⟨rfl, rfl⟩ := e
      obtain ⟨kp, hk⟩ := Option.isSome_iff_exists.1 h1
      right; right; exact ⟨kp, hk, .inl ⟨rec, rfl, by simp [hk]⟩⟩
    · left; rw [if_neg e]
  case commit t' p' g o =>
    obtain ⟨h1, rfl⟩ := h
    simp only [World.withDs, Store.part?_updPart]
    by_cases e : t' = t ∧ p' = p
    · obtain ⟨rfl, rfl⟩ := e
      obtain ⟨kp, hk⟩ := Option.isSome_iff_exists.1 h1
      right; right; exact ⟨kp, hk, .inr (.inl ⟨g, o, rfl, by simp [hk]⟩)⟩
    · left; rw [if_neg e]
  case groupCommitted t' p' g =>
    obtain ⟨kp, h1, _, rfl⟩ := h
    simp only [World.withDs, Store.part?_updPart]
    by_cases e : t' = t ∧ p' = p
    · obtain ⟨rfl, rfl⟩ := e
      right; right; exact ⟨kp, h1, .inr (.inr (.inl ⟨g, rfl, by simp [h1]⟩))⟩
    · left; rw [if_neg e]
  case setOffset t' p' g o =>
    obtain ⟨h1, rfl⟩ := h
    simp only [World.withDs, Store.part?_updPart]
    by_cases e : t' = t ∧ p' = p
    · obtain ⟨rfl, rfl⟩ := e
      obtain ⟨kp, hk⟩ := Option.isSome_iff_exists.1 h1
      right; right; exact ⟨kp, hk, .inr (.inr (.inr ⟨g, o, rfl, by simp [hk]⟩))⟩
    · left; rw [if_neg e]
  all_goals left; first
    | (rw [h]; done) | (rw [h.1]; done) | (rw [h.2.1]; done)
    | (obtain ⟨_, _, _, rfl⟩ := h; rfl) | (obtain ⟨_, _, rfl, _⟩ := h; rfl) | (obtain ⟨_, _, rfl⟩ := h; rfl)

/-- Actions that change the store. -/
def Act.mutates : Act → Bool
  | .createTopic _ | .createPartition _ _ | .post _ _ _ | .commit _ _ _ _ | .groupCommitted _ _ _ | .setOffset _ _ _ _ => true
  | _ => false

theorem step_same {a : Act} {w w' : World} {r : a.Resp} (h : a.step w r w') (hm : a.mutates = false) : w'.ds = w.ds := by
  cases a <;> simp only [Act.step] at h <;> first
    | (cases hm; done)
    | (rw [h]; done) | (rw [h.1]; done) | (rw [h.2.1]; done)
    | (obtain ⟨_, _, _, rfl⟩ := h; rfl) | (obtain ⟨_, _, rfl, _⟩ := h; rfl) | (obtain ⟨_, _, rfl⟩ := h; rfl)

theorem step_log {a : Act} {w w' : World} {r : a.Resp} (h : a.step w r w') (t : Bytes) (p : I32) :
    w'.log t p = w.log t p ++ Spec.posts a.effect.toList t p := by
  by_cases hm : a.mutates = false
  · have e := step_same h hm
    have : Spec.posts a.effect.toList t p = [] := by
      cases a <;> first | rfl | (cases hm; done)
    rw [this]; simp [World.log, e]
  · cases a <;> first | exact absurd rfl hm | skip
    all_goals simp only [Act.step] at h
    case createTopic t' => subst h; simp [World.log, World.withDs, Store.part?_createTopic, Act.effect, Spec.posts]
    case createPartition t' p' =>
      obtain ⟨h1, rfl⟩ := h
      simp only [World.log, World.withDs, Act.effect, Spec.posts, Option.toList_none, List.append_nil]
      rw [Store.part?_createPartition _ _ _ _ _ h1]
      by_cases e : t' = t ∧ p' = p
      · obtain ⟨rfl, rfl⟩ := e
        rw [if_pos ⟨rfl, rfl⟩]
        cases hp : w.ds.part? t' p' <;> simp [Store.newPartition]
      · rw [if_neg e]
    case post t' p' rec =>
      obtain ⟨h1, rfl⟩ := h
      simp only [World.log, World.withDs, Store.part?_updPart, Act.effect, Option.toList_some, Spec.posts]
      by_cases e : t' = t ∧ p' = p
      · obtain ⟨rfl, rfl⟩ := e
        obtain ⟨kp, hk⟩ := Option.isSome_iff_exists.1 h1
        simp [hk, Store.postRecord]
      · simp [e]
    case commit t' p' g o =>
      obtain ⟨h1, rfl⟩ := h
      simp only [World.log, World.withDs, Store.part?_updPart, Act.effect, Option.toList_some, Spec.posts, List.append_nil]
      by_cases e : t' = t ∧ p' = p
      · obtain ⟨rfl, rfl⟩ := e
        obtain ⟨kp, hk⟩ := Option.isSome_iff_exists.1 h1
        simp only [hk, and_self, if_true, Option.map_some, Option.getD_some, Store.commitOffset]
        split <;> rfl
      · rw [if_neg e]
    case groupCommitted t' p' g =>
      obtain ⟨kp, h1, _, rfl⟩ := h
      simp only [World.log, World.withDs, Store.part?_updPart, Act.effect, Option.toList_none, Spec.posts, List.append_nil]
      by_cases e : t' = t ∧ p' = p
      · obtain ⟨rfl, rfl⟩ := e
        simp only [h1, and_self, if_true, Option.map_some, Option.getD_some, Store.touchGroup]
        split <;> rfl
      · rw [if_neg e]
    case setOffset t' p' g o =>
      obtain ⟨h1, rfl⟩ := h
      simp only [World.log, World.withDs, Store.part?_updPart, Act.effect, Option.toList_some, Spec.posts, List.append_nil]
      by_cases e : t' = t ∧ p' = p
      · obtain ⟨rfl, rfl⟩ := e
        obtain ⟨kp, hk⟩ := Option.isSome_iff_exists.1 h1
        simp [hk, Store.setOffset]
      · rw [if_neg e]

theorem step_committed {a : Act} {w w' : World} {r : a.Resp} (h : a.step w r w') (t : Bytes) (p : I32) (g : Bytes) :
    (w'.committed t p g).toInt = Spec.committedFrom (w.committed t p g).toInt a.effect.toList t p g := by
  by_cases hm : a.mutates = false
  · have e := step_same h hm
    have : ∀ c, Spec.committedFrom c a.effect.toList t p g = c := by
      intro c
      cases a <;> first | rfl | (cases hm; done)
    rw [this]; simp [World.committed, e]
  · cases a <;> first | exact absurd rfl hm | skip
    all_goals simp only [Act.step] at h
    case createTopic t' => subst h; simp [World.committed, World.withDs, Store.part?_createTopic, Act.effect, Spec.committedFrom]
    case createPartition t' p' =>
      obtain ⟨h1, rfl⟩ := h
      simp only [World.committed, World.withDs, Act.effect, Spec.committedFrom, Option.toList_none]
      rw [Store.part?_createPartition _ _ _ _ _ h1]
      by_cases e : t' = t ∧ p' = p
      · obtain ⟨rfl, rfl⟩ := e
        rw [if_pos ⟨rfl, rfl⟩]
        cases hp : w.ds.part? t' p' <;> simp [Store.newPartition]
      · rw [if_neg e]
    case post t' p' rec =>
      obtain ⟨h1, rfl⟩ := h
      simp only [World.committed, World.withDs, Store.part?_updPart, Act.effect, Option.toList_some, Spec.committedFrom]
      by_cases e : t' = t ∧ p' = p
      · obtain ⟨rfl, rfl⟩ := e
        obtain ⟨kp, hk⟩ := Option.isSome_iff_exists.1 h1
        simp [hk, Store.postRecord]
      · rw [if_neg e]
    case commit t' p' g' o =>
      obtain ⟨h1, rfl⟩ := h
      simp only [World.committed, World.withDs, Store.part?_updPart, Act.effect, Option.toList_some, Spec.committedFrom]
      by_cases e : t' = t ∧ p' = p
      · obtain ⟨rfl, rfl⟩ := e
        obtain ⟨kp, hk⟩ := Option.isSome_iff_exists.1 h1
        simp only [hk, and_self, if_true, Option.map_some, Option.bind_some, true_and, Store.commitOffset]
        by_cases e2 : g' = g
        · subst e2
          by_cases lt : ((GoMap.get kp.committed g').getD 0).toInt < o.toInt
          · simp only [if_pos lt, GoMap.get_set_self, Option.getD_some, if_true]; omega
          · simp only [if_neg lt, if_true]; omega
        · rw [if_neg e2]
          split
          · rw [GoMap.get_set_ne _ _ e2]
          · rfl
      · rw [if_neg e, if_neg (fun ⟨a, b, _⟩ => e ⟨a, b⟩)]
    case groupCommitted t' p' g' =>
      obtain ⟨kp, h1, _, rfl⟩ := h
      simp only [World.committed, World.withDs, Store.part?_updPart, Act.effect, Option.toList_none, Spec.committedFrom]
      by_cases e : t' = t ∧ p' = p
      · obtain ⟨rfl, rfl⟩ := e
        simp only [h1, and_self, if_true, Option.map_some, Option.bind_some, Store.touchGroup]
        cases hg : GoMap.get kp.committed g' with
        | some v => rfl
        | none =>
          by_cases e2 : g' = g
          · subst e2; simp [hg]
          · simp only [GoMap.get_set_ne _ _ e2]
      · rw [if_neg e]
    case setOffset t' p' g' o =>
      obtain ⟨h1, rfl⟩ := h
      simp only [World.committed, World.withDs, Store.part?_updPart, Act.effect, Option.toList_some, Spec.committedFrom]
      by_cases e : t' = t ∧ p' = p
      · obtain ⟨rfl, rfl⟩ := e
        obtain ⟨kp, hk⟩ := Option.isSome_iff_exists.1 h1
        simp only [hk, and_self, if_true, Option.map_some, Option.bind_some, true_and, Store.setOffset]
        by_cases e2 : g' = g
        · subst e2; simp
        · rw [if_neg e2, GoMap.get_set_ne _ _ e2]
      · rw [if_neg e, if_neg (fun ⟨a, b, _⟩ => e ⟨a, b⟩)]

/-- Partitions are never removed. -/
theorem step_hasPartition {a : Act} {w w' : World} {r : a.Resp} (h : a.step w r w') {t : Bytes} {p : I32}
    (hp : w.hasPartition t p) : w'.hasPartition t p := by
  unfold World.hasPartition at *
  rcases step_part h t p with e | ⟨e, _, _⟩ | ⟨kp, _, h⟩
  · rw [e]; exact hp
  · rw [e] at hp; cases hp
  · rcases h with ⟨_, _, e⟩ | ⟨_, _, _, e⟩ | ⟨_, _, e⟩ | ⟨_, _, _, e⟩ <;> rw [e] <;> rfl

/-- Topics are never removed. -/
theorem step_hasTopic {a : Act} {w w' : World} {r : a.Resp} (h : a.step w r w') {t : Bytes} (ht : w.hasTopic t) : w'.hasTopic t := by
  by_cases hm : a.mutates = false
  · unfold World.hasTopic; rw [step_same h hm]; exact ht
  · unfold World.hasTopic at *
    cases a <;> first | exact absurd rfl hm | skip
    all_goals simp only [Act.step] at h
    case createTopic t' =>
      subst h; simp only [World.withDs, Store.get_createTopic]
      split <;> simp [ht]
    case createPartition t' p' => obtain ⟨_, rfl⟩ := h; simp only [World.withDs]; rw [Store.get_isSome_createPartition]; exact ht
    case post => obtain ⟨_, rfl⟩ := h; simp only [World.withDs]; rw [Store.get_isSome_updPart]; exact ht
    case commit => obtain ⟨_, rfl⟩ := h; simp only [World.withDs]; rw [Store.get_isSome_updPart]; exact ht
    case groupCommitted => obtain ⟨_, _, _, rfl⟩ := h; simp only [World.withDs]; rw [Store.get_isSome_updPart]; exact ht
    case setOffset => obtain ⟨_, rfl⟩ := h; simp only [World.withDs]; rw [Store.get_isSome_updPart]; exact ht

/-- A partition's topic exists. -/
theorem World.hasPartition.hasTopic {w : World} {t : Bytes} {p : I32} (h : w.hasPartition t p) : w.hasTopic t := by
  unfold World.hasPartition Store.part? at h
  unfold World.hasTopic
  cases hg : GoMap.get w.ds t with
  | none => rw [hg] at h; cases h
  | some _ => rfl

/-- Time never runs backwards. -/
theorem step_clock {a : Act} {w w' : World} {r : a.Resp} (h : a.step w r w') : w.clock ≤ w'.clock := by
  cases a <;> simp only [Act.step] at h
  case sleep d => obtain ⟨c, h1, rfl⟩ := h; simp only; omega
  case tick d => subst h; simp only; omega
  all_goals first
    | (rw [h]; exact Int.le_refl _) | (rw [h.1]; exact Int.le_refl _) | (rw [h.2.1]; exact Int.le_refl _) | (rw [h.2]; exact Int.le_refl _)
    | (obtain ⟨_, _, _, rfl⟩ := h; exact Int.le_refl _) | (obtain ⟨_, _, rfl, _⟩ := h; exact Int.le_refl _) | (obtain ⟨_, _, rfl⟩ := h; exact Int.le_refl _)

/-- A cancelled context stays cancelled. -/
theorem step_cancelled {a : Act} {w w' : World} {r : a.Resp} (h : a.step w r w') (hc : w.cancelled = true) : w'.cancelled = true := by
  cases a <;> simp only [Act.step] at h
  case cancel => subst h; rfl
  case sleep d => obtain ⟨c, h1, rfl⟩ := h; exact hc
  case tick d => subst h; exact hc
  all_goals first
    | (rw [h]; exact hc) | (rw [h.1]; exact hc) | (rw [h.2.1]; exact hc) | (rw [h.2]; exact hc)
    | (obtain ⟨_, _, _, rfl⟩ := h; exact hc) | (obtain ⟨_, _, rfl, _⟩ := h; exact hc) | (obtain ⟨_, _, rfl⟩ := h; exact hc)

/-! ### Histories -/

theorem Steps.log {w w' : World} {tr : List Ev} (h : Steps w tr w') (t : Bytes) (p : I32) :
    w'.log t p = w.log t p ++ Spec.posts (effects tr) t p := by
  induction h with
  | nil => simp [effects, Spec.posts]
  | cons e hst _ ih => rw [ih, step_log hst, effects_cons, Spec.posts_append, List.append_assoc]

theorem Steps.committed {w w' : World} {tr : List Ev} (h : Steps w tr w') (t : Bytes) (p : I32) (g : Bytes) :
    (w'.committed t p g).toInt = Spec.committedFrom (w.committed t p g).toInt (effects tr) t p g := by
  induction h with
  | nil => simp [effects, Spec.committedFrom]
  | cons e hst _ ih => rw [ih, step_committed hst, effects_cons, Spec.committedFrom_append]

theorem Steps.hasPartition {w w' : World} {tr : List Ev} (h : Steps w tr w') {t : Bytes} {p : I32}
    (hp : w.hasPartition t p) : w'.hasPartition t p := by
  induction h with
  | nil => exact hp
  | cons e hst _ ih => exact ih (step_hasPartition hst hp)

theorem Steps.hasTopic {w w' : World} {tr : List Ev} (h : Steps w tr w') {t : Bytes} (hp : w.hasTopic t) : w'.hasTopic t := by
  induction h with
  | nil => exact hp
  | cons e hst _ ih => exact ih (step_hasTopic hst hp)

theorem Steps.clock {w w' : World} {tr : List Ev} (h : Steps w tr w') : w.clock ≤ w'.clock := by
  induction h with
  | nil => exact Int.le_refl _
  | cons e hst _ ih => exact Int.le_trans (step_clock hst) ih

theorem Steps.cancelled {w w' : World} {tr : List Ev} (h : Steps w tr w') (hc : w.cancelled = true) : w'.cancelled = true := by
  induction h with
  | nil => exact hc
  | cons e hst _ ih => exact ih (step_cancelled hst hc)

/-- The world of a freshly created mock. -/
def World.init (clock : Int) : World := { ds := Store.new, clock := clock, cancelled := false }

end KM
