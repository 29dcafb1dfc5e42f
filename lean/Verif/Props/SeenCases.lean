import Verif.Props.Seen
import Verif.Props.LinearCases
/-
C107: a run that meets the hypotheses of `C107_linearizable`, with pipelined requests.
-/
namespace KM.Props
open KM KM.Spec

/-- The state after the first `i` steps of a schedule. -/
def netStAt : List NPick → Net → Nat → Net
  | _, s, 0 => s
  | [], s, _ + 1 => s
  | p :: ps, s, i + 1 => match s.pick p with
    | some x => netStAt ps x.2 i
    | none => s

/-- Step `i` of a schedule. -/
def netEvAt : List NPick → Net → Nat → NEv
  | [], _, _ => .mock (.tick 0)
  | p :: ps, s, i => match s.pick p with
    | none => .mock (.tick 0)
    | some x => match i with
      | 0 => x.1
      | i + 1 => netEvAt ps x.2 i

theorem netAt_step (ps : List NPick) (s : Net) (h : (Net.play ps s).isSome = true) (i : Nat) (hi : i < ps.length) :
    Net.Step (netStAt ps s i) (netEvAt ps s i) (netStAt ps s (i + 1)) := by
  induction ps generalizing s i with
  | nil => cases hi
  | cons p ps ih =>
    unfold Net.play at h
    cases hp : s.pick p with
    | none => rw [hp] at h; cases h
    | some x =>
      rw [hp] at h
      dsimp only at h
      have h' : (Net.play ps x.2).isSome = true := by
        cases hq : Net.play ps x.2 with
        | none => rw [hq] at h; cases h
        | some y => rfl
      cases i with
      | zero =>
        have e1 : netStAt (p :: ps) s 0 = s := rfl
        have e2 : netEvAt (p :: ps) s 0 = x.1 := by unfold netEvAt; rw [hp]
        have e3 : netStAt (p :: ps) s (0 + 1) = x.2 := by
          unfold netStAt; rw [hp]
          cases ps <;> rfl
        rw [e1, e2, e3]
        exact Net.pick_sound hp
      | succ i =>
        have e1 : netStAt (p :: ps) s (i + 1) = netStAt ps x.2 i := by conv => lhs; unfold netStAt; rw [hp]
        have e2 : netEvAt (p :: ps) s (i + 1) = netEvAt ps x.2 i := by conv => lhs; unfold netEvAt; rw [hp]
        have e3 : netStAt (p :: ps) s (i + 1 + 1) = netStAt ps x.2 (i + 1) := by conv => lhs; unfold netStAt; rw [hp]
        rw [e1, e2, e3]
        exact ih _ h' i (Nat.lt_of_succ_lt_succ hi)

/-- The run of a schedule. -/
def netCourse (ps : List NPick) (h : (Net.play ps (Net.new ⟨9092, []⟩ 0)).isSome = true) : NetTimeline ⟨9092, []⟩ 0 where
  length := ps.length
  st := netStAt ps (Net.new ⟨9092, []⟩ 0)
  ev := netEvAt ps (Net.new ⟨9092, []⟩ 0)
  start := by cases ps <;> rfl
  step := netAt_step ps _ h

/-- A record is posted; a client sends two Fetch requests at once; after the first has been answered another record is posted, then the second is answered. Then the client receives
both responses. -/
def pipelined : List NPick := (starts 0 ++ opens 0 ++ accepts 0 ++ accepts 0 ++ caller 1 postOne 6).map .mock ++
  [.send 0 (frame askFetch 7 ++ frame askFetch 8), .mock (.conn 0), .mock (.conn 0), .mock (.recv 0 (.data (frame askFetch 7 ++ frame askFetch 8)))] ++
  List.replicate 15 (.mock (.conn 0)) ++ (caller 1 (.simplePost [116] 0 none (some [3])) 6).map .mock ++ List.replicate 15 (.mock (.conn 0)) ++ [.receive 0 30, .receive 0 1000]

set_option maxRecDepth 100000 in
theorem pipelined_plays : (Net.play pipelined (Net.new ⟨9092, []⟩ 0)).isSome = true := by decide +kernel

def pipelinedRun : NetTimeline ⟨9092, []⟩ 0 := netCourse pipelined pipelined_plays

/-- The two responses, with their sizes. -/
def firstReply : Bytes := (got 0 (pipelinedRun.slice 0 75)).take 77
def secondReply : Bytes := (got 0 (pipelinedRun.slice 0 75)).drop 77

def pipelinedOps : List ClientOp := [⟨27, 32, .caller 1, .posted firstPost, 0⟩, ⟨33, 75, .conn 0, .answered askFetch 7 firstReply, 0⟩, ⟨33, 75, .conn 0, .answered askFetch 8 secondReply, 1⟩,
  ⟨52, 57, .caller 1, .posted posting, 0⟩]

theorem framed_of {w : Bytes} (h : 4 ≤ w.length) (h' : be (w.take 4) = (w.drop 4).length) : Framed w [w.drop 4] := by
  have := Framed.cons (size := w.take 4) (m := w.drop 4) (by simp; omega) h' .nil
  rwa [List.append_nil, List.take_append_drop] at this

set_option maxRecDepth 100000 in
theorem pipelined_records : ∀ t p, ∀ x ∈ ((pipelinedRun.st 75).sys.view 0).log t p, wireSize x < 2 ^ 31 :=
  (roomy_of (k := 0) (tr := []) (s2 := (pipelinedRun.st 75).sys) (by decide +kernel) (by decide)).records

set_option maxRecDepth 100000 in
theorem pipelined_first : (ClientOp.mk 33 75 (.conn 0) (.answered askFetch 7 firstReply) 0).Seen pipelinedRun := by
  refine .request (m := askFetch.message 7 (some [99])) (client := some [99]) (r := firstReply.drop 4) (by decide) (by decide) (by decide +kernel) (by decide +kernel)
    (accepted_proper askFetch_wf _ ?_) ?_ (by decide +kernel) (framed_of (by decide +kernel) (by decide +kernel)) (.fetch _ (.inl (by simp))) pipelined_records (by decide +kernel)
  · intro x hx; cases hx; unfold ShortStr; decide
  · unfold FitsBuffer; decide +kernel

set_option maxRecDepth 100000 in
theorem pipelined_second : (ClientOp.mk 33 75 (.conn 0) (.answered askFetch 8 secondReply) 1).Seen pipelinedRun := by
  refine .request (m := askFetch.message 8 (some [99])) (client := some [99]) (r := secondReply.drop 4) (by decide) (by decide) (by decide +kernel) (by decide +kernel)
    (accepted_proper askFetch_wf _ ?_) ?_ (by decide +kernel) (framed_of (by decide +kernel) (by decide +kernel)) (.fetch _ (.inl (by simp))) pipelined_records (by decide +kernel)
  · intro x hx; cases hx; unfold ShortStr; decide
  · unfold FitsBuffer; decide +kernel

set_option maxRecDepth 100000 in
theorem pipelined_post : (ClientOp.mk 27 32 (.caller 1) (.posted firstPost) 0).Seen pipelinedRun :=
  .call (o := ⟨27, 32, .caller 1, .posted firstPost⟩) (.post (by decide) (by decide) rfl
    (call_in (H := pipelinedRun.mock) 27 32 1 firstPost.call (by decide) (by decide) rfl rfl (by decide +kernel) rfl)) rfl

set_option maxRecDepth 100000 in
theorem pipelined_later : (ClientOp.mk 52 57 (.caller 1) (.posted posting) 0).Seen pipelinedRun :=
  .call (o := ⟨52, 57, .caller 1, .posted posting⟩) (.post (by decide) (by decide) rfl
    (call_in (H := pipelinedRun.mock) 52 57 1 posting.call (by decide) (by decide) rfl rfl (by decide +kernel) rfl)) rfl

/-- Only connection 0 acts. -/
def onlyZero : SEv → Bool
  | .conn k _ _ => k == 0
  | _ => true

theorem actsOf_none {tr : List SEv} (h : tr.all onlyZero = true) {k : Nat} (hk : k ≠ 0) : actsOf k tr = [] := by
  unfold actsOf
  rw [List.filterMap_eq_nil_iff]
  intro e he
  have := List.all_eq_true.1 h e he
  cases e with
  | conn k' a r => simp only [onlyZero, beq_iff_eq] at this; subst this; simp [Ne.symm hk]
  | _ => rfl

set_option maxRecDepth 100000 in
theorem pipelined_zero : (mocks (pipelinedRun.slice 0 75)).all onlyZero = true := by decide +kernel

set_option synthInstance.maxSize 1000 in
set_option maxRecDepth 100000 in
/-- The hypotheses of `C107_linearizable`: the client has sent both requests before the second record was posted, the first response is without it and the second has it. -/
example : SeenOps pipelinedRun pipelinedOps ∧
    ((Client.response Client.fetch firstReply).map fun x => x.1.2.2.map fun t => t.2.map fun p => p.messages.map (·.value)) = some [[[some [1, 2]]]] ∧
    ((Client.response Client.fetch secondReply).map fun x => x.1.2.2.map fun t => t.2.map fun p => p.messages.map (·.value)) = some [[[some [1, 2], some [3]]]] := by
  refine ⟨⟨?_, ?_, ?_, ?_, ?_⟩, by decide +kernel, by decide +kernel⟩
  · intro o ho
    simp only [pipelinedOps, List.mem_cons, List.not_mem_nil, or_false] at ho
    rcases ho with rfl | rfl | rfl | rfl
    exacts [pipelined_post, pipelined_first, pipelined_second, pipelined_later]
  · simp [pipelinedOps]
  · intro t ht i hc
    have h : ((List.range 75).all fun t => match changedBy (inMock (pipelinedRun.ev t)) with
      | some (.caller i) => i == 1 && (decide (27 ≤ t) && decide (t < 32) || decide (52 ≤ t) && decide (t < 57))
      | _ => true) = true := by decide +kernel
    have := List.all_eq_true.1 h t (List.mem_range.2 ht)
    rw [hc] at this
    simp only [Bool.and_eq_true, Bool.or_eq_true, beq_iff_eq, decide_eq_true_eq] at this
    obtain ⟨rfl, ⟨h1, h2⟩ | ⟨h1, h2⟩⟩ := this
    · exact ⟨⟨27, 32, .caller 1, .posted firstPost, 0⟩, by simp [pipelinedOps], rfl, h1, h2⟩
    · exact ⟨⟨52, 57, .caller 1, .posted posting, 0⟩, by simp [pipelinedOps], rfl, h1, h2⟩
  · intro k j hj
    by_cases hk : k = 0
    · subst hk
      have h : (served (actsOf 0 (mocks (pipelinedRun.slice 0 75)))).length = 2 := by decide +kernel
      have hj : j < 2 := h ▸ hj
      match j, hj with
      | 0, _ => exact ⟨⟨33, 75, .conn 0, .answered askFetch 7 firstReply, 0⟩, by simp [pipelinedOps], rfl, rfl⟩
      | 1, _ => exact ⟨⟨33, 75, .conn 0, .answered askFetch 8 secondReply, 1⟩, by simp [pipelinedOps], rfl, rfl⟩
    · have := actsOf_none pipelined_zero hk
      rw [show pipelinedRun.length = 75 from rfl, this] at hj
      cases hj
  · intro k
    by_cases hk : k = 0
    · subst hk
      have := pipelinedRun.run (Nat.zero_le 75) (by decide)
      rw [pipelinedRun.start] at this
      exact smallReplies_check this 0 (by decide +kernel)
    · rw [show pipelinedRun.length = 75 from rfl, actsOf_none pipelined_zero hk]
      intro l1 m l2 l3 c payload e
      exact absurd e (by simp)

end KM.Props
