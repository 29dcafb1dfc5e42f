import Verif.Sim
import Mathlib.Data.List.Forall2
/-
Reachable worlds, moments of a run, sequential loops, and observational equivalence of stores.
-/
namespace KM

/-! ### Moments -/

/-- At some moment of the run `tr` from `w` to `w'` (possibly its start or its end) the world satisfies `P`. -/
def Moment (w : World) (tr : List Ev) (w' : World) (P : World → Prop) : Prop :=
  ∃ t0 t1 wm, tr = t0 ++ t1 ∧ Steps w t0 wm ∧ Steps wm t1 w' ∧ P wm

theorem Moment.lift {w wa wb w' : World} {t0 t t1 : List Ev} {P : World → Prop} (h0 : Steps w t0 wa) (h1 : Steps wb t1 w')
    (h : Moment wa t wb P) : Moment w (t0 ++ t ++ t1) w' P := by
  obtain ⟨a, b, wm, rfl, h2, h3, h4⟩ := h
  exact ⟨t0 ++ a, b ++ t1, wm, by simp, h0.append h2, h3.append h1, h4⟩

theorem Moment.mono {w w' : World} {t : List Ev} {P Q : World → Prop} (h : Moment w t w' P) (hPQ : ∀ w, P w → Q w) : Moment w t w' Q := by
  obtain ⟨a, b, wm, e, h2, h3, h4⟩ := h
  exact ⟨a, b, wm, e, h2, h3, hPQ _ h4⟩

/-- A finished loop over a list consists of finished runs of its body, one per element in order. -/
theorem forEach_ret {α β : Type} {f : α → Prog β} {xs : List α} {ys : List β} {w w' : World} {tr : List Ev}
    (h : Exec w (Prog.forEach f xs) tr w' (.ret ys)) :
    List.Forall₂ (fun x y => ∃ t0 t t1 wa wb, tr = t0 ++ t ++ t1 ∧ Steps w t0 wa ∧ Exec wa (f x) t wb (.ret y) ∧ Steps wb t1 w') xs ys := by
  induction xs generalizing w w' tr ys with
  | nil =>
    obtain ⟨h1, _⟩ := exec_ret_inv h
    cases h1; exact .nil
  | cons x xs ih =>
    obtain ⟨t1, t2, w1, y, h1, h2, rfl⟩ := exec_bind_ret h
    obtain ⟨t3, t4, w2, ys', h3, h4, rfl⟩ := exec_bind_ret h2
    obtain ⟨h5, h6⟩ := exec_ret_inv h4
    cases h5
    refine .cons ⟨[], t1, t3 ++ t4, w, w1, by simp, .nil w, h1, h3.steps.append h6.1⟩ ?_
    refine List.Forall₂.imp ?_ (ih h3)
    rintro a b ⟨t0, t, t5, wa, wb, rfl, ha, hb, hc⟩
    exact ⟨t1 ++ t0, t, t5 ++ t4, wa, wb, by simp, h1.steps.append ha, hb, hc.append h6.1⟩

/-- A loop over a list that panics does so in its body. -/
theorem forEach_panic {α β : Type} {f : α → Prog β} {xs : List α} {w w' : World} {tr : List Ev}
    (h : Exec w (Prog.forEach f xs) tr w' .panic) : ∃ x ∈ xs, ∃ t0 t wa, Steps w t0 wa ∧ Exec wa (f x) t w' .panic := by
  induction xs generalizing w tr with
  | nil => obtain ⟨h1, _⟩ := exec_ret_inv h; cases h1
  | cons x xs ih =>
    rcases exec_bind_inv h with ⟨p', h1, h2⟩ | ⟨t1, t2, w1, y, h1, h2, rfl⟩
    · cases p' with
      | ret v =>
        rw [Prog.bind_ret] at h2
        cases xs <;> simp only [Prog.forEach, Prog.bind_ret] at h2 <;> try cases h2
        rename_i x2 xs2
        cases hf : f x2 with
        | ret v2 =>
          rw [hf] at h2
          obtain ⟨y, hy, t0, t, wa, ha, hb⟩ := ih (w := w') (tr := []) (by
            cases hq : Prog.forEach f (x2 :: xs2) with
            | panic => exact .refl _ _
            | ret v => simp only [Prog.forEach] at hq; rw [hf] at hq; rw [hq] at h2; cases h2
            | act a k => simp only [Prog.forEach] at hq; rw [hf] at hq; rw [hq] at h2; cases h2
            | loop s b k => simp only [Prog.forEach] at hq; rw [hf] at hq; rw [hq] at h2; cases h2)
          exact ⟨y, List.mem_cons_of_mem _ hy, tr ++ t0, t, wa, h1.steps.append ha, hb⟩
        | panic => exact ⟨x2, by simp, tr, [], w', h1.steps, by rw [hf]; exact .refl _ _⟩
        | act a k => rw [hf] at h2; cases h2
        | loop s b k => rw [hf] at h2; cases h2
      | panic => exact ⟨x, by simp, [], tr, w, .nil w, h1⟩
      | act => cases h2
      | loop => cases h2
    · rcases exec_bind_inv h2 with ⟨p', h3, h4⟩ | ⟨t3, t4, w2, ys, h3, h4, rfl⟩
      · cases p' with
        | ret v => cases h4
        | panic =>
          obtain ⟨y, hy, t0, t, wa, ha, hb⟩ := ih h3
          exact ⟨y, List.mem_cons_of_mem _ hy, t1 ++ t0, t, wa, h1.steps.append ha, hb⟩
        | act => cases h4
        | loop => cases h4
      · obtain ⟨h5, _⟩ := exec_ret_inv h4; cases h5

/-- Panics of sequences. -/
theorem exec_bind_panic {α β : Type} {w w' : World} {p : Prog α} {f : α → Prog β} {tr : List Ev} (h : Exec w (p.bind f) tr w' .panic) :
    Exec w p tr w' .panic ∨ ∃ t1 t2 w1 v, Exec w p t1 w1 (.ret v) ∧ Exec w1 (f v) t2 w' .panic ∧ tr = t1 ++ t2 := by
  rcases exec_bind_inv h with ⟨p', h1, h2⟩ | h
  · cases p' with
    | ret v => rw [Prog.bind_ret] at h2; exact .inr ⟨tr, [], w', v, h1, by rw [← h2]; exact .refl _ _, by simp⟩
    | panic => exact .inl h1
    | act => cases h2
    | loop => cases h2
  · exact .inr h

theorem exec_map_panic {α β : Type} {w w' : World} {p : Prog α} {f : α → β} {tr : List Ev} (h : Exec w (p.map f) tr w' .panic) :
    Exec w p tr w' .panic := by
  rcases exec_bind_panic h with h | ⟨t1, t2, w1, v, _, h2, _⟩
  · exact h
  · obtain ⟨h3, _⟩ := exec_ret_inv h2; cases h3

theorem exec_act_panic {α : Type} {w w' : World} {a : Act} {k : a.Resp → Prog α} {tr : List Ev} (h : Exec w (.act a k) tr w' .panic) :
    ∃ t1 w1 r w2 t2, EnvSteps w t1 w1 ∧ a.step w1 r w2 ∧ Exec w2 (k r) t2 w' .panic ∧ tr = t1 ++ ⟨true, a, r⟩ :: t2 := by
  rcases exec_act_inv h with ⟨h, _⟩ | h
  · cases h
  · exact h

theorem exec_ret_panic {α : Type} {w w' : World} {v : α} {tr : List Ev} (h : Exec w (.ret v) tr w' .panic) : False := by
  obtain ⟨h, _⟩ := exec_ret_inv h; cases h

/-! ### Reachable worlds -/

/-- What every partition looks like that was created by the code. -/
def World.WF (w : World) : Prop :=
  ∀ t p kp, w.ds.part? t p = some kp → kp.index = p ∧ kp.errorCode = 0 ∧ kp.metadata = none

/-- `w` is reached from a fresh mock by the history `h`. -/
def ReachedBy (h : List Ev) (w : World) : Prop := ∃ clock, Steps (World.init clock) h w

theorem step_wf {a : Act} {w w' : World} {r : a.Resp} (h : a.step w r w') (hw : w.WF) : w'.WF := by
  intro t p kp hk
  rcases step_part h t p with e | ⟨_, e, _⟩ | ⟨kp0, e0, h⟩
  · rw [e] at hk; exact hw t p kp hk
  · rw [e] at hk; cases hk; exact ⟨rfl, rfl, rfl⟩
  · have h0 := hw t p kp0 e0
    rcases h with ⟨_, _, e⟩ | ⟨_, _, _, e⟩ | ⟨_, _, e⟩ | ⟨_, _, _, e⟩
    all_goals rw [e] at hk; cases hk
    · exact h0
    · unfold Store.commitOffset; dsimp only; split <;> exact h0
    · unfold Store.touchGroup; split <;> exact h0
    · exact h0

theorem Steps.wf {w w' : World} {tr : List Ev} (h : Steps w tr w') (hw : w.WF) : w'.WF := by
  induction h with
  | nil => exact hw
  | cons e hst _ ih => exact ih (step_wf hst hw)

theorem init_wf (c : Int) : (World.init c).WF := by
  intro t p kp hk; cases hk

theorem ReachedBy.wf {h : List Ev} {w : World} (hr : ReachedBy h w) : w.WF := by
  obtain ⟨c, hs⟩ := hr
  exact hs.wf (init_wf c)

theorem ReachedBy.append {h tr : List Ev} {w w' : World} (hr : ReachedBy h w) (hs : Steps w tr w') : ReachedBy (h ++ tr) w' := by
  obtain ⟨c, h0⟩ := hr
  exact ⟨c, h0.append hs⟩

theorem ReachedBy.committed {h : List Ev} {w : World} (hr : ReachedBy h w) (t : Bytes) (p : I32) (g : Bytes) :
    (w.committed t p g).toInt = Spec.committed (effects h) t p g := by
  obtain ⟨c, h0⟩ := hr
  rw [h0.committed t p g]; rfl

theorem ReachedBy.log {h : List Ev} {w : World} (hr : ReachedBy h w) (t : Bytes) (p : I32) :
    w.log t p = Spec.posts (effects h) t p := by
  obtain ⟨c, h0⟩ := hr
  rw [h0.log t p]; rfl

/-! ### Histories without resets -/

theorem committedFrom_le {h : List Eff} {t : Bytes} {p : I32} {g : Bytes} (hn : ∀ o, Spec.Effect.reset t p g o ∉ h) (c : Int) :
    c ≤ Spec.committedFrom c h t p g := by
  induction h generalizing c with
  | nil => exact Int.le_refl _
  | cons e h ih =>
    have ih := ih fun o ho => hn o (List.mem_cons_of_mem _ ho)
    cases e with
    | post t' p' r => exact ih c
    | commit t' p' g' o =>
      simp only [Spec.committedFrom]
      refine Int.le_trans ?_ (ih _)
      split
      · exact Int.le_max_left _ _
      · exact Int.le_refl _
    | reset t' p' g' o =>
      simp only [Spec.committedFrom]
      split
      · next e =>
        obtain ⟨rfl, rfl, rfl⟩ := e
        exact absurd (List.mem_cons_self) (hn o)
      · exact ih c

theorem committedFrom_ge_commit {h : List Eff} {t : Bytes} {p : I32} {g : Bytes} {o : Int} (hn : ∀ o, Spec.Effect.reset t p g o ∉ h)
    (hm : Spec.Effect.commit t p g o ∈ h) (c : Int) : o ≤ Spec.committedFrom c h t p g := by
  obtain ⟨a, b, rfl⟩ := List.append_of_mem hm
  rw [Spec.committedFrom_append]
  simp only [Spec.committedFrom, and_self, if_true]
  refine Int.le_trans (Int.le_max_right _ _) (committedFrom_le ?_ _)
  intro o ho
  exact hn o (List.mem_append_right _ (List.mem_cons_of_mem _ ho))

/-! ### Observational equivalence -/

/-- What the actions can tell about a partition. -/
structure PObs where
  index : I32
  errorCode : I16
  records : List Record
  metadata : Option Bytes
  committed : Bytes → I64

def Partition.obs (kp : Partition) : PObs :=
  { index := kp.index, errorCode := kp.errorCode, records := kp.records, metadata := kp.metadata
    committed := fun g => (GoMap.get kp.committed g).getD 0 }

def Topic.obs (kt : Topic) : List (I32 × PObs) := kt.map fun e => (e.1, e.2.obs)
def Store.obs (ds : Store) : List (Bytes × List (I32 × PObs)) := ds.map fun e => (e.1, Topic.obs e.2)

/-- Two worlds that differ at most in group entries holding 0 versus being absent. -/
def ObsEq (w1 w2 : World) : Prop := w1.ds.obs = w2.ds.obs ∧ w1.clock = w2.clock ∧ w1.cancelled = w2.cancelled

theorem GoMap.get_map {K V U : Type} [DecidableEq K] (f : V → U) (m : List (K × V)) (k : K) :
    GoMap.get (m.map fun e => (e.1, f e.2)) k = (GoMap.get m k).map f := by
  induction m with
  | nil => rfl
  | cons e m ih =>
    obtain ⟨a, b⟩ := e
    simp only [List.map_cons, GoMap.get]
    split
    · rfl
    · exact ih

theorem GoMap.map_set {K V U : Type} [DecidableEq K] (f : V → U) (m : List (K × V)) (k : K) (v : V) :
    (GoMap.set m k v).map (fun e => (e.1, f e.2)) = GoMap.set (m.map fun e => (e.1, f e.2)) k (f v) := by
  induction m with
  | nil => rfl
  | cons e m ih =>
    obtain ⟨a, b⟩ := e
    simp only [List.map_cons, GoMap.set]
    split
    · rfl
    · simp only [List.map_cons, ih]

theorem obs_get (ds : Store) (t : Bytes) : GoMap.get ds.obs t = (GoMap.get ds t).map Topic.obs := GoMap.get_map _ _ _
theorem obs_getP (kt : Topic) (p : I32) : GoMap.get (Topic.obs kt) p = (GoMap.get kt p).map Partition.obs := GoMap.get_map _ _ _

theorem ObsEq.topic {w1 w2 : World} (h : ObsEq w1 w2) (t : Bytes) : (GoMap.get w1.ds t).map Topic.obs = (GoMap.get w2.ds t).map Topic.obs := by
  rw [← obs_get, ← obs_get, h.1]

theorem obs_part (ds : Store) (t : Bytes) (p : I32) :
    (ds.part? t p).map Partition.obs = ((GoMap.get ds t).map Topic.obs).bind fun kt => GoMap.get kt p := by
  unfold Store.part?
  cases GoMap.get ds t with
  | none => rfl
  | some kt => simp only [Option.bind_some, Option.map_some]; rw [obs_getP]

theorem ObsEq.part {w1 w2 : World} (h : ObsEq w1 w2) (t : Bytes) (p : I32) :
    (w1.ds.part? t p).map Partition.obs = (w2.ds.part? t p).map Partition.obs := by
  rw [obs_part, obs_part, h.topic]

theorem ObsEq.topicSome {w1 w2 : World} (h : ObsEq w1 w2) (t : Bytes) : (GoMap.get w1.ds t).isSome = (GoMap.get w2.ds t).isSome := by
  have := congrArg Option.isSome (h.topic t)
  simpa using this

theorem ObsEq.partSome {w1 w2 : World} (h : ObsEq w1 w2) (t : Bytes) (p : I32) : (w1.ds.part? t p).isSome = (w2.ds.part? t p).isSome := by
  have := congrArg Option.isSome (h.part t p)
  simpa using this

/-- The partition found in the other world looks the same. -/
theorem ObsEq.partSome' {w1 w2 : World} (h : ObsEq w1 w2) {t : Bytes} {p : I32} {kp : Partition} (hk : w1.ds.part? t p = some kp) :
    ∃ kp2, w2.ds.part? t p = some kp2 ∧ kp2.obs = kp.obs := by
  have := h.part t p
  rw [hk] at this
  cases h2 : w2.ds.part? t p with
  | none => rw [h2] at this; cases this
  | some kp2 => rw [h2] at this; exact ⟨kp2, rfl, (Option.some.inj this).symm⟩

theorem ObsEq.symm {w1 w2 : World} (h : ObsEq w1 w2) : ObsEq w2 w1 := ⟨h.1.symm, h.2.1.symm, h.2.2.symm⟩
theorem ObsEq.refl (w : World) : ObsEq w w := ⟨rfl, rfl, rfl⟩
theorem ObsEq.trans {w1 w2 w3 : World} (h : ObsEq w1 w2) (h2 : ObsEq w2 w3) : ObsEq w1 w3 := ⟨h.1.trans h2.1, h.2.1.trans h2.2.1, h.2.2.trans h2.2.2⟩

theorem ObsEq.log {w1 w2 : World} (h : ObsEq w1 w2) (t : Bytes) (p : I32) : w1.log t p = w2.log t p := by
  have := h.part t p
  unfold World.log
  cases h1 : w1.ds.part? t p <;> cases h2 : w2.ds.part? t p <;> rw [h1, h2] at this <;> try (cases this; done)
  · exact congrArg PObs.records (Option.some.inj this)

theorem ObsEq.committed {w1 w2 : World} (h : ObsEq w1 w2) (t : Bytes) (p : I32) (g : Bytes) : w1.committed t p g = w2.committed t p g := by
  have := h.part t p
  unfold World.committed
  cases h1 : w1.ds.part? t p <;> cases h2 : w2.ds.part? t p <;> rw [h1, h2] at this <;> try (cases this; done)
  · exact congrFun (congrArg PObs.committed (Option.some.inj this)) g

/-- Update through a partition pointer, seen by an observer. -/
theorem obs_updPart (ds : Store) (t : Bytes) (p : I32) (f : Partition → Partition) (f' : PObs → PObs) (hf : ∀ kp, (f kp).obs = f' kp.obs) :
    (ds.updPart t p f).obs = match GoMap.get ds.obs t with
      | none => ds.obs
      | some kt => match GoMap.get kt p with
        | none => ds.obs
        | some o => GoMap.set ds.obs t (GoMap.set kt p (f' o)) := by
  rw [obs_get]
  cases h : GoMap.get ds t with
  | none => simp [Store.updPart, h]
  | some kt =>
    simp only [Option.map_some]
    rw [obs_getP]
    cases h2 : GoMap.get kt p with
    | none => simp [Store.updPart, h, h2]
    | some kp =>
      simp only [Option.map_some, Store.updPart, h, h2]
      unfold Store.obs Topic.obs
      rw [GoMap.map_set, GoMap.map_set, hf]

theorem obs_createTopic (ds : Store) (t : Bytes) :
    (ds.createTopic t).obs = match GoMap.get ds.obs t with | some _ => ds.obs | none => GoMap.set ds.obs t [] := by
  rw [obs_get]
  cases h : GoMap.get ds t with
  | some kt => simp [Store.createTopic, h]
  | none =>
    simp only [Option.map_none, Store.createTopic, h]
    unfold Store.obs
    rw [GoMap.map_set]; rfl

theorem obs_createPartition (ds : Store) (t : Bytes) (p : I32) :
    (ds.createPartition t p).obs = match GoMap.get ds.obs t with
      | none => ds.obs
      | some kt => match GoMap.get kt p with
        | some _ => ds.obs
        | none => GoMap.set ds.obs t (GoMap.set kt p (Store.newPartition p).obs) := by
  rw [obs_get]
  cases h : GoMap.get ds t with
  | none => simp [Store.createPartition, h]
  | some kt =>
    simp only [Option.map_some]
    rw [obs_getP]
    cases h2 : GoMap.get kt p with
    | some kp => simp [Store.createPartition, h, h2]
    | none =>
      simp only [Option.map_none, Store.createPartition, h, h2]
      unfold Store.obs Topic.obs
      rw [GoMap.map_set, GoMap.map_set]

theorem obs_post (kp : Partition) (r : Record) : (Store.postRecord kp r).obs = { kp.obs with records := kp.obs.records ++ [r] } := rfl

theorem obs_touch (kp : Partition) (g : Bytes) : (Store.touchGroup kp g).obs = kp.obs := by
  unfold Store.touchGroup
  cases h : GoMap.get kp.committed g with
  | some v => rfl
  | none =>
    unfold Partition.obs
    simp only
    congr 1
    funext g'
    rw [GoMap.get_set]
    split
    · next e => subst e; rw [h]; rfl
    · rfl

theorem obs_set (kp : Partition) (g : Bytes) (o : I64) :
    (Store.setOffset kp g o).obs = { kp.obs with committed := fun g' => if g = g' then o else kp.obs.committed g' } := by
  unfold Store.setOffset Partition.obs
  simp only
  congr 1
  funext g'
  rw [GoMap.get_set]
  split <;> rfl

theorem obs_commit (kp : Partition) (g : Bytes) (o : I64) :
    (Store.commitOffset kp g o).obs =
      if (kp.obs.committed g).toInt < o.toInt then { kp.obs with committed := fun g' => if g = g' then o else kp.obs.committed g' } else kp.obs := by
  unfold Store.commitOffset
  show Partition.obs (if (kp.obs.committed g).toInt < o.toInt then _ else _) = _
  split
  · exact obs_set kp g o
  · rfl

/-- Equivalent worlds can do the same things with the same results and stay equivalent. -/
theorem ObsEq.step {w1 w2 : World} (h : ObsEq w1 w2) {a : Act} {r : a.Resp} {w1' : World} (hs : a.step w1 r w1') :
    ∃ w2', a.step w2 r w2' ∧ ObsEq w1' w2' := by
  obtain ⟨ho, hc, hd⟩ := id h
  have upd : ∀ (t : Bytes) (p : I32) (f : Partition → Partition) (f' : PObs → PObs), (∀ kp, (f kp).obs = f' kp.obs) →
      ObsEq (w1.withDs (w1.ds.updPart t p f)) (w2.withDs (w2.ds.updPart t p f)) := by
    intro t p f f' hf
    refine ⟨?_, hc, hd⟩
    show (w1.ds.updPart t p f).obs = (w2.ds.updPart t p f).obs
    rw [obs_updPart _ _ _ _ f' hf, obs_updPart _ _ _ _ f' hf, ho]
  cases a <;> simp only [Act.step] at hs ⊢
  case createTopic t =>
    refine ⟨_, rfl, ?_⟩
    subst hs
    refine ⟨?_, hc, hd⟩
    show (w1.ds.createTopic t).obs = (w2.ds.createTopic t).obs
    rw [obs_createTopic, obs_createTopic, ho]
  case getTopic t =>
    obtain ⟨rfl, rfl⟩ := hs
    exact ⟨_, ⟨rfl, h.topicSome t⟩, h⟩
  case createPartition t p =>
    obtain ⟨h1, rfl⟩ := hs
    refine ⟨_, ⟨h.topicSome t ▸ h1, rfl⟩, ?_, hc, hd⟩
    show (w1.ds.createPartition t p).obs = (w2.ds.createPartition t p).obs
    rw [obs_createPartition, obs_createPartition, ho]
  case getPartition t p =>
    obtain ⟨h1, rfl, rfl⟩ := hs
    exact ⟨_, ⟨h.topicSome t ▸ h1, rfl, h.partSome t p⟩, h⟩
  case post t p rec =>
    obtain ⟨h1, rfl⟩ := hs
    exact ⟨_, ⟨h.partSome t p ▸ h1, rfl⟩, upd t p _ (fun o => { o with records := o.records ++ [rec] }) fun kp => rfl⟩
  case commit t p g o =>
    obtain ⟨h1, rfl⟩ := hs
    exact ⟨_, ⟨h.partSome t p ▸ h1, rfl⟩, upd t p _ (fun x => if (x.committed g).toInt < o.toInt then { x with committed := fun g' => if g = g' then o else x.committed g' } else x) fun kp => obs_commit kp g o⟩
  case groupCommitted t p g =>
    obtain ⟨kp, h1, rfl, rfl⟩ := hs
    obtain ⟨kp2, h2, h3⟩ := h.partSome' h1
    exact ⟨_, ⟨kp2, h2, (congrFun (congrArg PObs.committed h3) g).symm, rfl⟩, upd t p _ id fun kp => obs_touch kp g⟩
  case setOffset t p g o =>
    obtain ⟨h1, rfl⟩ := hs
    exact ⟨_, ⟨h.partSome t p ▸ h1, rfl⟩, upd t p _ (fun x => { x with committed := fun g' => if g = g' then o else x.committed g' }) fun kp => obs_set kp g o⟩
  case partInfo t p =>
    obtain ⟨kp, h1, rfl, rfl⟩ := hs
    obtain ⟨kp2, h2, h3⟩ := h.partSome' h1
    exact ⟨_, ⟨kp2, h2, by rw [show kp.index = kp2.index from (congrArg PObs.index h3).symm, show kp.errorCode = kp2.errorCode from (congrArg PObs.errorCode h3).symm,
      show kp.metadata = kp2.metadata from (congrArg PObs.metadata h3).symm], rfl⟩, h⟩
  case numRecords t p =>
    obtain ⟨kp, h1, rfl, rfl⟩ := hs
    obtain ⟨kp2, h2, h3⟩ := h.partSome' h1
    exact ⟨_, ⟨kp2, h2, by rw [show kp.records = kp2.records from (congrArg PObs.records h3).symm], rfl⟩, h⟩
  case recordAt t p i =>
    obtain ⟨kp, h1, rfl, rfl⟩ := hs
    obtain ⟨kp2, h2, h3⟩ := h.partSome' h1
    exact ⟨_, ⟨kp2, h2, rfl, by rw [show kp.records = kp2.records from (congrArg PObs.records h3).symm]⟩, h⟩
  case fetchRecord t p i =>
    obtain ⟨kp, h1, rfl, rfl⟩ := hs
    obtain ⟨kp2, h2, h3⟩ := h.partSome' h1
    exact ⟨_, ⟨kp2, h2, rfl, by rw [show kp.records = kp2.records from (congrArg PObs.records h3).symm]⟩, h⟩
  case rangeTopics =>
    obtain ⟨rfl, hp⟩ := hs
    have e : GoMap.keys w1'.ds = GoMap.keys w2.ds := by
      have := congrArg (fun o => o.map Prod.fst) ho
      unfold Store.obs at this
      simpa [List.map_map, GoMap.keys, Function.comp_def] using this
    exact ⟨_, ⟨rfl, e ▸ hp⟩, h⟩
  case rangePartitions t =>
    obtain ⟨rfl, kt, hk, hp⟩ := hs
    have := h.topic t
    rw [hk] at this
    cases h2 : GoMap.get w2.ds t with
    | none => rw [h2] at this; cases this
    | some kt2 =>
      rw [h2] at this
      have e : kt.map (fun e => e.2.index) = kt2.map (fun e => e.2.index) := by
        have := congrArg (fun o => o.map fun e => e.2.index) (Option.some.inj this)
        unfold Topic.obs at this
        simpa [List.map_map, Function.comp_def, Partition.obs] using this
      exact ⟨_, ⟨rfl, kt2, rfl, e ▸ hp⟩, h⟩
  case order => obtain ⟨rfl, hp⟩ := hs; exact ⟨_, ⟨rfl, hp⟩, h⟩
  case orderInt => obtain ⟨rfl, hp⟩ := hs; exact ⟨_, ⟨rfl, hp⟩, h⟩
  case orderHeaders => obtain ⟨rfl, hp⟩ := hs; exact ⟨_, ⟨rfl, hp⟩, h⟩
  case now => obtain ⟨rfl, hp⟩ := hs; exact ⟨_, ⟨rfl, by rw [hp, hc]⟩, h⟩
  case isDone => obtain ⟨rfl, hp⟩ := hs; exact ⟨_, ⟨rfl, by rw [hp, hd]⟩, h⟩
  case sleep d =>
    obtain ⟨c, h1, rfl⟩ := hs
    exact ⟨_, ⟨c, hc ▸ h1, rfl⟩, ho, rfl, hd⟩
  case tick d => subst hs; exact ⟨_, rfl, ho, by simp [hc], hd⟩
  case cancel => subst hs; exact ⟨_, rfl, ho, hc, rfl⟩
  case recv => obtain ⟨rfl, hp⟩ := hs; exact ⟨_, ⟨rfl, hp⟩, h⟩
  case isStopping => subst hs; exact ⟨_, rfl, h⟩
  case write => subst hs; exact ⟨_, rfl, h⟩
  case isConnected => subst hs; exact ⟨_, rfl, h⟩
  case close => subst hs; exact ⟨_, rfl, h⟩
  case reqBegin => subst hs; exact ⟨_, rfl, h⟩
  case reqEnd => subst hs; exact ⟨_, rfl, h⟩

theorem ObsEq.steps {w1 w2 w1' : World} (h : ObsEq w1 w2) {tr : List Ev} (hs : Steps w1 tr w1') : ∃ w2', Steps w2 tr w2' ∧ ObsEq w1' w2' := by
  induction hs generalizing w2 with
  | nil => exact ⟨w2, .nil _, h⟩
  | cons e hst _ ih =>
    obtain ⟨w3, h1, h2⟩ := h.step hst
    obtain ⟨w4, h3, h4⟩ := ih h2
    exact ⟨w4, .cons e h1 h3, h4⟩

/-- Actions without observable effect lead to equivalent worlds. -/
theorem obsEq_of_noEffect {a : Act} {r : a.Resp} {w w' : World} (hs : a.step w r w') (ha : NoEffect a)
    (hc : w'.clock = w.clock) (hd : w'.cancelled = w.cancelled) : ObsEq w w' := by
  rcases ha with h | ⟨t, p, g, rfl⟩
  · exact ⟨by rw [step_same hs h], hc.symm, hd.symm⟩
  · obtain ⟨kp, h1, rfl, rfl⟩ := hs
    refine ⟨?_, rfl, rfl⟩
    show w.ds.obs = (w.ds.updPart t p _).obs
    rw [obs_updPart _ _ _ _ id fun kp => obs_touch kp g]
    rw [obs_get]
    unfold Store.part? at h1
    cases h2 : GoMap.get w.ds t with
    | none => rfl
    | some kt =>
      simp only [Option.map_some]
      rw [obs_getP]
      cases h3 : GoMap.get kt p with
      | none => rfl
      | some kp =>
        simp only [Option.map_some, id]
        have e1 : GoMap.set (Topic.obs kt) p kp.obs = Topic.obs kt := GoMap.set_get_self (by rw [obs_getP, h3]; rfl)
        rw [e1]
        exact (GoMap.set_get_self (by rw [obs_get, h2]; rfl)).symm

end KM
