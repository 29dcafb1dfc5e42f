import Verif.Props.LockFair
/-
C138: an endless run in which one caller waits for a mutex that another one holds.
-/
namespace KM.Props
open KM KM.Spec

/-- The states of the mock when the goroutines act as the schedule says, and then nobody. -/
def path : List Pick → Fine → Nat → Fine
  | p :: ps, F, i + 1 => match F.pick p with
    | some (_, F1) => path ps F1 i
    | none => F
  | _, F, _ => F

def pathEv : List Pick → Fine → Nat → FEv
  | [], _, _ => .sys (.tick 0)
  | p :: _, F, 0 => match F.pick p with
    | some (e, _) => e
    | none => .sys (.tick 0)
  | p :: ps, F, i + 1 => match F.pick p with
    | some (_, F1) => pathEv ps F1 i
    | none => .sys (.tick 0)

theorem path_step (ps : List Pick) (F : Fine) (i : Nat) : Fine.Step (path ps F i) (pathEv ps F i) (path ps F (i + 1)) := by
  have stutter : ∀ F : Fine, Fine.Step F (.sys (.tick 0)) F := by
    intro F
    have := Fine.Step.other (F := F) (e := .tick 0) rfl nofun (Sys.Step.tick (s := F.sys) 0)
    rwa [show ({ F.sys with clock := F.sys.clock + ((0 : Nat) : Int) } : Sys) = F.sys by simp] at this
  induction ps generalizing F i with
  | nil => exact stutter F
  | cons p ps ih =>
    cases i with
    | zero =>
      show Fine.Step F (pathEv (p :: ps) F 0) (path (p :: ps) F (0 + 1))
      simp only [pathEv, path]
      split
      · next e F1 h => exact Fine.pick_sound h
      · exact stutter F
    | succ i =>
      simp only [pathEv, path]
      split
      · exact ih _ i
      · exact stutter F

theorem path_last (ps : List Pick) (F : Fine) {i : Nat} (h : ps.length ≤ i) : path ps F i = path ps F ps.length := by
  induction ps generalizing F i with
  | nil => rfl
  | cons p ps ih =>
    cases i with
    | zero => cases h
    | succ i =>
      simp only [List.length_cons, path]
      split
      · exact ih _ (by simpa using h)
      · rfl

/-- The two callers that post to the same partition, each of them access by access (`twoPosted`), and then nobody does anything. -/
def posters (n : Nat) : FineNet := ⟨path twoPosted (Fine.new ⟨9092, []⟩ 0) n, fun _ => ⟨[], [], false⟩⟩

def postersEv (n : Nat) : FNEv := .mock (pathEv twoPosted (Fine.new ⟨9092, []⟩ 0) n)

/-- Made by one of the first two callers or an accept loop, and not a matter of connections. -/
def plain : FEv → Bool
  | .mem (.api i) => i < 2
  | .sys (.life (.api i _)) => i < 2
  | .sys (.call i _ _) => i < 2
  | .sys (.life (.run _ _)) => true
  | .sys (.tick _) => true
  | _ => false

set_option maxRecDepth 100000 in
theorem posters_plain : (List.range twoPosted.length).all (fun n => plain (pathEv twoPosted (Fine.new ⟨9092, []⟩ 0) n)) = true := by decide +kernel

theorem pathEv_last (ps : List Pick) (F : Fine) {i : Nat} (h : ps.length ≤ i) : pathEv ps F i = .sys (.tick 0) := by
  induction ps generalizing F i with
  | nil => rfl
  | cons p ps ih =>
    cases i with
    | zero => cases h
    | succ i =>
      simp only [pathEv]
      split
      · exact ih _ (by simpa using h)
      · rfl

theorem posters_event (n : Nat) : plain (pathEv twoPosted (Fine.new ⟨9092, []⟩ 0) n) = true := by
  by_cases h : n < twoPosted.length
  · exact List.all_eq_true.1 posters_plain n (List.mem_range.2 h)
  · rw [pathEv_last _ _ (by omega)]; rfl

theorem posters_step (n : Nat) : FineNet.Step (posters n) (postersEv n) (posters (n + 1)) := by
  have hs := path_step twoPosted (Fine.new ⟨9092, []⟩ 0) n
  have hp := posters_event n
  unfold posters postersEv
  generalize pathEv twoPosted (Fine.new ⟨9092, []⟩ 0) n = e at hs hp
  cases e with
  | mem t => exact FineNet.Step.mem (n := ⟨_, _⟩) hs
  | sys e =>
    refine FineNet.Step.sys (n := ⟨_, _⟩) hs ?_
    rcases e with (_ | _ | _ | _) | _ | _ | _ | _ <;> first | exact rfl | cases hp

/-- The other callers are idle. -/
theorem posters_idle {i : Nat} (hi : 2 ≤ i) (n : Nat) : (posters n).fine.sys.api i = .idle := by
  have wf : ∀ n, (posters n).fine.WF := by
    intro n
    induction n with
    | zero => exact Fine.new_wf ..
    | succ n ih => exact ((path_step twoPosted _ n).refines ih).1
  induction n with
  | zero => rfl
  | succ n ih =>
    have hs := path_step twoPosted (Fine.new ⟨9092, []⟩ 0) n
    have hp := posters_event n
    generalize pathEv twoPosted (Fine.new ⟨9092, []⟩ 0) n = e at hs hp
    have hr := (hs.refines (wf n)).2
    cases e with
    | mem t =>
      have hr : (posters (n + 1)).fine.load = (posters n).fine.load := hr
      show (posters (n + 1)).fine.load.api i = _
      rw [hr]
      exact ih
    | sys e =>
      have hw := step_api_other (i := i) (show Sys.Step (posters n).fine.load e (posters (n + 1)).fine.load from hr) (by
        rcases e with (_ | _ | _ | _) | _ | _ | _ | _ <;> simp only [plain, decide_eq_true_eq] at hp <;> simp only [SEv.of, ne_eq, Option.some.injEq, Holder.api.injEq] <;>
          first | omega | (intro h; cases h) | cases hp)
      have e0 : (posters n).fine.load.api i = .idle := ih
      rw [e0] at hw
      show (posters (n + 1)).fine.load.api i = _
      generalize (posters (n + 1)).fine.load.api i = pc at hw
      cases hw <;> rfl

set_option maxRecDepth 100000 in
theorem posters_done : ((posters twoPosted.length).fine.sys.api 0 matches .idle) = true ∧ ((posters twoPosted.length).fine.sys.api 1 matches .idle) = true ∧
    (posters twoPosted.length).fine.sys.conns.length = 0 ∧ (posters twoPosted.length).fine.sys.runs.map (fun r => r.pc matches .accept) = [true] ∧
    (posters twoPosted.length).fine.sys.closes = [] := by decide +kernel

/-- In the end nobody has anything to do. -/
theorem posters_quiet (t : Goroutine) : ¬ (posters twoPosted.length).fine.sys.ready t := by
  obtain ⟨h0, h1, h2, h3, h4⟩ := posters_done
  cases t with
  | api i =>
    have : (posters twoPosted.length).fine.sys.api i = .idle := by
      match i with
      | 0 => revert h0; generalize (posters twoPosted.length).fine.sys.api 0 = pc; cases pc <;> intro h <;> first | rfl | cases h
      | 1 => revert h1; generalize (posters twoPosted.length).fine.sys.api 1 = pc; cases pc <;> intro h <;> first | rfl | cases h
      | i + 2 => exact posters_idle (by omega) _
    show ¬ ApiPc.ready _ _
    rw [this]
    exact id
  | run g =>
    rintro ⟨r, r1, r2⟩
    have hm := List.mem_map_of_mem (f := fun r : RunG => (r.pc matches .accept : Bool)) (List.mem_of_getElem? r1)
    rw [h3] at hm
    have hm := List.mem_singleton.1 hm
    revert hm r2
    generalize r.pc = pc
    cases pc <;> intro r2 hm <;> first | cases hm | skip
    have : g ∈ (posters twoPosted.length).fine.sys.closes := r2
    rw [h4] at this
    cases this
  | conn c =>
    rintro ⟨k, k1, _⟩
    rw [List.length_eq_zero_iff.1 h2] at k1
    cases k1

theorem posters_endless : FineEndless ⟨9092, []⟩ 0 posters postersEv where
  first := rfl
  step := posters_step
  fair t _ hr := by
    obtain ⟨m, m1, m2, _⟩ := hr twoPosted.length
    have : (posters m) = posters twoPosted.length := by
      unfold posters
      rw [path_last _ _ m1]
    rw [this] at m2
    exact absurd m2 (posters_quiet t)

/-- The hypothesis of `C138_seen`: the first `n` steps of that run. -/
example (n : Nat) : FineNet.Run (FineNet.new ⟨9092, []⟩ 0) ((List.range n).map postersEv) (posters n) := by
  have app : ∀ {a b c : FineNet} {es : List FNEv} {e : FNEv}, FineNet.Run a es b → FineNet.Step b e c → FineNet.Run a (es ++ [e]) c := by
    intro a b c es e h hs
    induction h with
    | nil => exact .cons hs (.nil _)
    | cons h _ ih => exact .cons h (ih hs)
  induction n with
  | zero => exact .nil _
  | succ n ih => rw [List.range_succ, List.map_append]; exact app ih (posters_step n)

/-- The number of the event in which caller 1 calls SimplePost. -/
def secondCall : Nat := fineBoot.length + 10

def isCallOf1 : FNEv → Bool
  | .mock (.sys (.life (.api 1 (.simplePost [116] 0 none (some [4]))))) => true
  | _ => false

set_option maxRecDepth 100000 in
theorem second_call : isCallOf1 (postersEv secondCall) = true ∧ ((posters secondCall).fine.sys.api 1 matches .idle) = true := by decide +kernel

/-- The hypotheses of `C138`, `C138_free` and `C138_returns`: caller 1 has called SimplePost and waits for the mutex of the partition, which caller 0 holds; the call returns. -/
example : FineEndless ⟨9092, []⟩ 0 posters postersEv ∧ (posters twoPosters.length).fine.waits (.api 1) ∧ (posters twoPosters.length).fine.mem.locks (.part 0) = some (.api 0) ∧
    ∃ m, secondCall < m ∧ (posters m).fine.sys.api 1 = .idle := by
  obtain ⟨h1, h2⟩ := second_call
  have he : postersEv secondCall = .mock (.sys (.life (.api 1 (.simplePost [116] 0 none (some [4]))))) := by
    revert h1
    generalize postersEv secondCall = e
    unfold isCallOf1
    split <;> intro h <;> first | rfl | cases h
  have hi : (posters secondCall).fine.sys.api 1 = .idle := by
    revert h2; generalize (posters secondCall).fine.sys.api 1 = pc; cases pc <;> intro h <;> first | rfl | cases h
  obtain ⟨m, m1, m2, _⟩ := C138_returns posters_endless hi he rfl
  refine ⟨posters_endless, ?_, by decide +kernel, m, m1, m2⟩
  have hw : ∃ a, (∃ f, (posters twoPosters.length).fine.sys.prog (.api 1) = some (.act a f)) ∧ a.lock ((posters twoPosters.length).fine.loc (.api 1)) = some (.part 0) := by
    have hd : (match (posters twoPosters.length).fine.sys.prog (.api 1) with
      | some (.act a _) => a.lock ((posters twoPosters.length).fine.loc (.api 1)) == some (.part 0)
      | _ => false) = true := by decide +kernel
    split at hd
    · next a f h => exact ⟨a, ⟨f, h⟩, by simpa using hd⟩
    · cases hd
  obtain ⟨a, ⟨f, w1⟩, w2⟩ := hw
  exact ⟨.part 0, a, f, w1, by decide +kernel, w2, by decide +kernel⟩

end KM.Props
