import Verif.Trace
/-
A deterministic scheduler used only to exhibit concrete runs (satisfiability examples): it computes one run of a program
under a given schedule, and every run it computes is a run in the sense of `Exec`.
-/
namespace KM

/-- One admissible result of an action. -/
def Act.exec1 : (a : Act) → World → Option (a.Resp × World)
  | .createTopic t, w => some ((), w.withDs (w.ds.createTopic t))
  | .getTopic t, w => some (w.ds.getTopic t, w)
  | .createPartition t p, w => if (GoMap.get w.ds t).isSome then some ((), w.withDs (w.ds.createPartition t p)) else none
  | .getPartition t p, w => if (GoMap.get w.ds t).isSome then some (w.ds.getPartition t p, w) else none
  | .post t p rec, w => if (w.ds.part? t p).isSome then some ((), w.withDs (w.ds.updPart t p (Store.postRecord · rec))) else none
  | .commit t p g o, w => if (w.ds.part? t p).isSome then some ((), w.withDs (w.ds.updPart t p (Store.commitOffset · g o))) else none
  | .groupCommitted t p g, w => (w.ds.part? t p).map fun kp =>
      (Store.groupCommitted kp g, w.withDs (w.ds.updPart t p (Store.touchGroup · g)))
  | .setOffset t p g o, w => if (w.ds.part? t p).isSome then some ((), w.withDs (w.ds.updPart t p (Store.setOffset · g o))) else none
  | .partInfo t p, w => (w.ds.part? t p).map fun kp => ((kp.index, kp.errorCode, kp.metadata), w)
  | .numRecords t p, w => (w.ds.part? t p).map fun kp => (kp.records.length, w)
  | .recordAt t p i, w => (w.ds.part? t p).map fun kp => (if i < 0 then none else kp.records[i.toNat]?, w)
  | .fetchRecord t p i, w => (w.ds.part? t p).map fun kp =>
      (if i < (kp.records.length : Int) then (if i < 0 then none else some kp.records[i.toNat]?) else some none, w)
  | .rangeTopics, w => some (GoMap.keys w.ds, w)
  | .rangePartitions t, w => (GoMap.get w.ds t).map fun kt => (kt.map fun e => e.2.index, w)
  | .order ks, w => some (ks, w)
  | .orderInt ks, w => some (ks, w)
  | .orderHeaders hs, w => some (hs, w)
  | .now, w => some (w.clock, w)
  | .isDone, w => some (w.cancelled, w)
  | .sleep d, w => some ((), { w with clock := w.clock + d })
  | .tick d, w => some ((), { w with clock := w.clock + d })
  | .cancel, w => some ((), { w with cancelled := true })
  | .recv, w => some (.timeout, w)
  | .isStopping, w => some (false, w)
  | .write _, w => some (true, w)
  | .isConnected, w => some (.eof, w)
  | .close, w => some ((), w)
  | .reqBegin _, w => some ((), w)
  | .reqEnd, w => some ((), w)

theorem Act.exec1_sound {a : Act} {w w' : World} {r : a.Resp} (h : a.exec1 w = some (r, w')) : a.step w r w' := by
  cases a <;> simp only [Act.exec1, Option.some.injEq, Prod.mk.injEq, Option.map_eq_some_iff, Option.ite_none_right_eq_some] at h <;>
    simp only [Act.step]
  case createTopic => exact h.2.symm
  case getTopic => exact ⟨h.2.symm, h.1.symm⟩
  case createPartition => exact ⟨h.1, h.2.2.symm⟩
  case getPartition => exact ⟨h.1, h.2.2.symm, h.2.1.symm⟩
  case post => exact ⟨h.1, h.2.2.symm⟩
  case commit => exact ⟨h.1, h.2.2.symm⟩
  case groupCommitted => obtain ⟨kp, h1, rfl, rfl⟩ := h; exact ⟨kp, h1, rfl, rfl⟩
  case setOffset => exact ⟨h.1, h.2.2.symm⟩
  case partInfo => obtain ⟨kp, h1, rfl, rfl⟩ := h; exact ⟨kp, h1, rfl, rfl⟩
  case numRecords => obtain ⟨kp, h1, rfl, rfl⟩ := h; exact ⟨kp, h1, rfl, rfl⟩
  case recordAt => obtain ⟨kp, h1, rfl, rfl⟩ := h; exact ⟨kp, h1, rfl, rfl⟩
  case fetchRecord => obtain ⟨kp, h1, rfl, rfl⟩ := h; exact ⟨kp, h1, rfl, rfl⟩
  case rangeTopics => obtain ⟨rfl, rfl⟩ := h; exact ⟨rfl, .refl _⟩
  case rangePartitions => obtain ⟨kt, h1, rfl, rfl⟩ := h; exact ⟨rfl, kt, h1, .refl _⟩
  case order => obtain ⟨rfl, rfl⟩ := h; exact ⟨rfl, .refl _⟩
  case orderInt => obtain ⟨rfl, rfl⟩ := h; exact ⟨rfl, .refl _⟩
  case orderHeaders => obtain ⟨rfl, rfl⟩ := h; exact ⟨rfl, .refl _⟩
  case now => obtain ⟨rfl, rfl⟩ := h; exact ⟨rfl, rfl⟩
  case isDone => obtain ⟨rfl, rfl⟩ := h; exact ⟨rfl, rfl⟩
  case sleep d => obtain ⟨_, rfl⟩ := h; exact ⟨_, Int.le_refl _, rfl⟩
  case tick => exact h.2.symm
  case cancel => exact h.2.symm
  case recv => obtain ⟨rfl, rfl⟩ := h; exact ⟨rfl, fun b hb => by cases hb⟩
  case isStopping => exact h.2.symm
  case write => exact h.2.symm
  case isConnected => exact h.2.symm
  case close => exact h.2.symm
  case reqBegin => exact h.2.symm
  case reqEnd => exact h.2.symm

/-- A schedule entry: the program's next action (with the default result), an action of the environment, or a read of the
program with the given bytes. -/
inductive Sched where
  | own
  | env (a : Act)
  | recv (b : Bytes)

/-- Own steps. -/
def go (n : Nat) : List Sched := List.replicate n .own

/-- The run of a program under a schedule; it stops early when the program ends or an action is impossible. -/
def Prog.run {α : Type} : List Sched → World → Prog α → List Ev × World × Prog α
  | [], w, p => ([], w, p)
  | .env a :: sch, w, p =>
    match a.exec1 w with
    | none => ([], w, p)
    | some (r, w1) => let x := Prog.run sch w1 p; (⟨false, a, r⟩ :: x.1, x.2)
  | .own :: sch, w, .act a k =>
    match a.exec1 w with
    | none => ([], w, .act a k)
    | some (r, w1) => let x := Prog.run sch w1 (k r); (⟨true, a, r⟩ :: x.1, x.2)
  | .recv b :: sch, w, .act .recv k =>
    if b ≠ [] ∧ b.length ≤ 8192 then let x := Prog.run sch w (k (.data b)); (⟨true, .recv, .data b⟩ :: x.1, x.2)
    else ([], w, .act .recv k)
  | .own :: sch, w, .loop s body k => Prog.run sch w (Prog.unroll s body k)
  | .own :: _, w, .ret v => ([], w, .ret v)
  | .own :: _, w, .panic => ([], w, .panic)
  | .recv _ :: _, w, p => ([], w, p)

theorem Prog.run_sound {α : Type} (sch : List Sched) (w : World) (p : Prog α) :
    Exec w p (p.run sch w).1 (p.run sch w).2.1 (p.run sch w).2.2 := by
  induction sch generalizing w p with
  | nil => exact .refl _ _
  | cons s sch ih =>
    cases s with
    | env a =>
      unfold Prog.run
      split
      · exact .refl _ _
      · next r w1 h => exact .env a r (Act.exec1_sound h) (ih w1 p)
    | own =>
      cases p with
      | ret v => exact .refl _ _
      | panic => exact .refl _ _
      | act a k =>
        unfold Prog.run
        split
        · exact .refl _ _
        · next r w1 h => exact .mine a k r (Act.exec1_sound h) (ih w1 (k r))
      | loop s body k => unfold Prog.run; exact .unroll (ih w _)
    | recv b =>
      cases p with
      | ret v => exact .refl _ _
      | panic => exact .refl _ _
      | loop s body k => exact .refl _ _
      | act a k =>
        cases a
        case recv =>
          unfold Prog.run
          split
          · next h => exact .mine .recv k (.data b) ⟨rfl, fun b' e => by cases e; exact h⟩ (ih w _)
          · exact .refl _ _
        all_goals exact .refl _ _

/-- A run under a schedule that ends with the given result is an `Exec`. -/
theorem Prog.run_ret {α : Type} {sch : List Sched} {w : World} {p : Prog α} {v : α} (h : (p.run sch w).2.2 = .ret v) :
    Exec w p (p.run sch w).1 (p.run sch w).2.1 (.ret v) := h ▸ p.run_sound sch w

theorem Prog.run_panic {α : Type} {sch : List Sched} {w : World} {p : Prog α} (h : (p.run sch w).2.2 = .panic) :
    Exec w p (p.run sch w).1 (p.run sch w).2.1 .panic := h ▸ p.run_sound sch w

/-- The run of a pool under a schedule of goroutine numbers. -/
def poolRun : List Nat → World → List (Prog Unit) → List TEv × World × List (Prog Unit)
  | [], w, ps => ([], w, ps)
  | i :: sch, w, ps =>
    match ps[i]? with
    | some (.act a k) =>
      match a.exec1 w with
      | none => ([], w, ps)
      | some (r, w1) => let x := poolRun sch w1 (ps.set i (k r)); (⟨some i, a, r⟩ :: x.1, x.2)
    | some (.loop s body k) => poolRun sch w (ps.set i (Prog.unroll s body k))
    | _ => ([], w, ps)

theorem poolRun_sound (sch : List Nat) (w : World) (ps : List (Prog Unit)) :
    Pool w ps (poolRun sch w ps).1 (poolRun sch w ps).2.1 (poolRun sch w ps).2.2 := by
  induction sch generalizing w ps with
  | nil => exact .refl _ _
  | cons i sch ih =>
    unfold poolRun
    split
    · next a k hi =>
      split
      · exact .refl _ _
      · next r w1 h => exact .step i a k r hi (Act.exec1_sound h) (ih w1 _)
    · next s body k hi => exact .unroll i hi (ih w _)
    · exact .refl _ _

end KM
