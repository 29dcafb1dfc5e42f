import Verif.Props.Linear
/-
C94: runs that meet the hypotheses of `C94_linearizable_partial`, and a run that is not linearizable if a post is one part.
-/
namespace KM.Props
open KM Spec

/-! ### The course of a schedule -/

/-- The state after the first `i` steps of a schedule. -/
def stAt : List Pick → Sys → Nat → Sys
  | _, s, 0 => s
  | [], s, _ + 1 => s
  | p :: ps, s, i + 1 => match s.pick p with
    | some x => stAt ps x.2 i
    | none => s

/-- Step `i` of a schedule. -/
def evAt : List Pick → Sys → Nat → SEv
  | [], _, _ => .tick 0
  | p :: ps, s, i => match s.pick p with
    | none => .tick 0
    | some x => match i with
      | 0 => x.1
      | i + 1 => evAt ps x.2 i

theorem at_step (ps : List Pick) (s : Sys) (h : (Sys.play ps s).isSome = true) (i : Nat) (hi : i < ps.length) : Sys.Step (stAt ps s i) (evAt ps s i) (stAt ps s (i + 1)) := by
  induction ps generalizing s i with
  | nil => cases hi
  | cons p ps ih =>
    unfold Sys.play at h
    cases hp : s.pick p with
    | none => rw [hp] at h; cases h
    | some x =>
      rw [hp] at h
      dsimp only at h
      have h' : (Sys.play ps x.2).isSome = true := by
        cases hq : Sys.play ps x.2 with
        | none => rw [hq] at h; cases h
        | some y => rfl
      cases i with
      | zero =>
        have e1 : stAt (p :: ps) s 0 = s := rfl
        have e2 : evAt (p :: ps) s 0 = x.1 := by unfold evAt; rw [hp]
        have e3 : stAt (p :: ps) s (0 + 1) = x.2 := by
          unfold stAt; rw [hp]
          cases ps <;> rfl
        rw [e1, e2, e3]
        exact Sys.pick_sound hp
      | succ i =>
        have e1 : stAt (p :: ps) s (i + 1) = stAt ps x.2 i := by conv => lhs; unfold stAt; rw [hp]
        have e2 : evAt (p :: ps) s (i + 1) = evAt ps x.2 i := by conv => lhs; unfold evAt; rw [hp]
        have e3 : stAt (p :: ps) s (i + 1 + 1) = stAt ps x.2 (i + 1) := by conv => lhs; unfold stAt; rw [hp]
        rw [e1, e2, e3]
        exact ih _ h' i (Nat.lt_of_succ_lt_succ hi)

/-- The run of a schedule. -/
def course (ps : List Pick) (h : (Sys.play ps (Sys.new ⟨9092, []⟩ 0)).isSome = true) : Timeline ⟨9092, []⟩ 0 where
  length := ps.length
  st := stAt ps (Sys.new ⟨9092, []⟩ 0)
  ev := evAt ps (Sys.new ⟨9092, []⟩ 0)
  start := by cases ps <;> rfl
  step := at_step ps _ h

/-- Request `req` is taken up with step `a` of the run, and answered before step `b`. -/
theorem exchange_in {H : Timeline ⟨9092, []⟩ 0} (a b k : Nat) (req : Request) (c : I32) (hab : a < b) (hb : b < H.length) (hw : req.WellFormed)
    (h : (begins k (req.message c (some [99])) (H.ev a) && endsOf k (H.ev b) && ((H.slice (a + 1) b).all fun e => !endsOf k e) &&
      ((actsOf k (H.slice (a + 1) b)).all fun e => !failsWrite e) && decide (req.body.length ≤ 4096) && decide ((header req.api.1 req.api.2 c (some [99])).length ≤ 4096) &&
      !(sent (actsOf k (H.slice (a + 1) b))).isEmpty) = true) :
    Exchange ⟨9092, []⟩ 0 k req c (H.slice 0 a) (H.st (a + 1)) (H.slice (a + 1) b) (H.st b) := by
  simp only [Bool.and_eq_true, decide_eq_true_eq] at h
  obtain ⟨⟨⟨⟨⟨⟨a1, a2⟩, a3⟩, a4⟩, a6⟩, a7⟩, a8⟩ := h
  refine ⟨hw, a6, ⟨some [99], _, ⟨accepted_proper hw c ?_, a7⟩, ⟨⟨H.st a, H.start ▸ H.run (Nat.zero_le _) (by omega), ?_⟩, H.run (by omega) (by omega), ⟨H.st (b + 1), ?_⟩, ?_⟩⟩, ?_, ?_⟩
  · intro x hx; cases hx; unfold ShortStr; decide
  · have h4 := H.step a (by omega)
    unfold begins at a1
    split at a1
    · next he =>
      simp only [Bool.and_eq_true, beq_iff_eq] at a1
      obtain ⟨rfl, rfl⟩ := a1
      rw [he] at h4
      exact h4
    · cases a1
  · have h4 := H.step b hb
    unfold endsOf at a2
    split at a2
    · next he =>
      simp only [beq_iff_eq] at a2
      obtain rfl := a2
      rw [he] at h4
      exact h4
    · cases a2
  · intro hm
    have := List.all_eq_true.1 a3 _ hm
    simp [endsOf] at this
  · intro b hm
    have := List.all_eq_true.1 a4 _ hm
    simp [failsWrite] at this
  · intro e
    rw [e] at a8
    cases a8

theorem roomy_of {k : Nat} {s2 : Sys} {tr : List SEv} (h1 : ((s2.view 0).ds.all fun x => x.2.all fun y => y.2.records.all fun r => decide (wireSize r < 2 ^ 31)) = true)
    (h2 : (sent (actsOf k tr)).length < 2 ^ 31) : Roomy k tr s2 := by
  refine ⟨fun t p r hr => ?_, h2⟩
  unfold World.log Store.part? at hr
  cases e : GoMap.get (s2.view 0).ds t with
  | none => rw [e] at hr; cases hr
  | some kt =>
    rw [e, Option.bind_some] at hr
    cases e2 : GoMap.get kt p with
    | none => rw [e2] at hr; cases hr
    | some kp =>
      rw [e2] at hr
      have := List.all_eq_true.1 (List.all_eq_true.1 (List.all_eq_true.1 h1 _ (GoMap.get_mem e)) _ (GoMap.get_mem e2)) r hr
      exact of_decide_eq_true this

/-- A call is made with step `a` of the run, and about to return before step `b`. -/
theorem call_in {H : Timeline ⟨9092, []⟩ 0} (a b i : Nat) (c : Call) (hab : a < b) (hb : b ≤ H.length) (hi : (H.st a).api i = .idle) (he : H.ev a = .life (.api i c))
    (h : ((H.slice (a + 1) b).all fun e => (match e with
      | .life (.api j _) => j != i
      | _ => true)) = true) (hr : (H.st b).api i = .call (.ret ())) : CallRun (H.st a) i c (H.slice (a + 1) b) (H.st b) := by
  refine ⟨hi, ⟨H.st (a + 1), he ▸ H.step a (by omega), H.run (by omega) hb⟩, ?_, hr⟩
  intro c' hm
  have := List.all_eq_true.1 h _ hm
  simp at this

/-- All changes are parts of the operations. -/
theorem all_in {H : Timeline ⟨9092, []⟩ 0} {ops : List Operation}
    (h : ((List.range H.length).all fun i => match changedBy (H.ev i) with
      | none => true
      | some x => ops.any fun o => isWho x o.who && decide (o.start ≤ i) && decide (i < o.finish)) = true) :
    ∀ i, i < H.length → ∀ x, changedBy (H.ev i) = some x → ∃ o ∈ ops, o.who = x ∧ o.start ≤ i ∧ i < o.finish := by
  intro i hi x hx
  have := List.all_eq_true.1 h i (List.mem_range.2 hi)
  rw [hx] at this
  obtain ⟨o, ho, h1⟩ := List.any_eq_true.1 this
  simp only [Bool.and_eq_true, decide_eq_true_eq] at h1
  refine ⟨o, ho, ?_, h1.1.2, h1.2⟩
  have h2 := h1.1.1
  cases x <;> cases e : o.who <;> simp_all [isWho]

/-! ### A post while a client fetches -/

/-- A record is posted; a client fetches, and while the Fetch is served another record is posted. -/
def both : List Pick := bootAndPost ++ accepts 0 ++ asks 0 askFetch 7 ++ List.replicate 4 (.conn 0) ++ caller 1 (.simplePost [116] 0 none (some [3])) 6 ++
  List.replicate 10 (.conn 0)

set_option maxRecDepth 100000 in
theorem both_plays : (Sys.play both (Sys.new ⟨9092, []⟩ 0)).isSome = true := by decide +kernel

def bothRun : Timeline ⟨9092, []⟩ 0 := course both both_plays

def firstPost : PostCall := ⟨[116], 0, none, some [1, 2], none⟩

def bothOps : List Operation := [⟨13, 18, .caller 0, .posted firstPost⟩, ⟨32, 50, .conn 0, .answered askFetch 7 (sent (actsOf 0 (bothRun.slice 32 50)))⟩, ⟨35, 40, .caller 1, .posted posting⟩]

theorem both_firstPost : (Operation.mk 13 18 (.caller 0) (.posted firstPost)).In bothRun :=
  .post (by decide) (by decide) rfl (call_in 13 18 0 firstPost.call (by decide) (by decide) rfl rfl (by decide +kernel) rfl)

theorem both_fetch : (Operation.mk 32 50 (.conn 0) (.answered askFetch 7 (sent (actsOf 0 (bothRun.slice 32 50))))).In bothRun :=
  .request (by decide) (by decide) (exchange_in 31 50 0 askFetch 7 (by decide) (by decide) askFetch_wf (by decide +kernel)) (.fetch _ (.inl (by simp)))
    (roomy_of (by decide +kernel) (by decide +kernel))

set_option maxRecDepth 100000 in
theorem both_secondPost : (Operation.mk 35 40 (.caller 1) (.posted posting)).In bothRun :=
  .post (by decide) (by decide) rfl (call_in 35 40 1 posting.call (by decide) (by decide) rfl rfl (by decide +kernel) rfl)

set_option synthInstance.maxSize 1000 in
set_option maxRecDepth 100000 in
/-- The hypotheses of `C94_linearizable_partial`: two posts and a Fetch, which began before the second post and returns its record. -/
example : Operations bothRun bothOps ∧
    ((Client.response Client.fetch (sent (actsOf 0 (bothRun.slice 32 50)))).map fun x => x.1.2.2.map fun t => t.2.map fun p => p.messages.map (·.value)) =
      some [[[some [1, 2], some [3]]]] := by
  refine ⟨⟨?_, ?_, all_in (by decide +kernel)⟩, by decide +kernel⟩
  · intro o ho
    simp only [bothOps, List.mem_cons, List.not_mem_nil, or_false] at ho
    rcases ho with rfl | rfl | rfl
    exacts [both_firstPost, both_fetch, both_secondPost]
  · simp [bothOps]

/-- In this run the Fetch is one part: the partition exists when it begins. So is the second post; the first creates the partition. -/
example : (∀ q, askFetch = .fetch q → Steady (bothRun.st 32) (bothRun.st 50) q) ∧ ((bothRun.st 35).view 0).hasPartition posting.topic 0 ∧
    ¬ ((bothRun.st 13).view 0).hasPartition firstPost.topic 0 := by
  unfold Steady Settled World.hasPartition
  refine ⟨fun q hq t ht p hp => .inl ?_, by decide +kernel, by decide +kernel⟩
  cases hq
  cases List.mem_singleton.1 ht
  cases List.mem_singleton.1 hp
  decide +kernel

/-! ### A post that creates the partition is not one part -/

/-- ListOffsets for the end of partition 0 of topic "u". -/
def askNew : Request := .listOffsets ⟨-1, [⟨[117], [⟨0, -1⟩]⟩]⟩

theorem askNew_wf : askNew.WellFormed := by
  unfold askNew Request.WellFormed ShortList ShortStr
  decide

/-- The post of a record to topic "u". -/
def newPost : PostCall := ⟨[117], 0, none, some [3], none⟩

/-- A post has created the partition and not added the record; a client asks for the end of the log. -/
def between : List Pick := bootAndPost ++ accepts 0 ++ caller 1 newPost.call 3 ++ asks 0 askNew 7 ++ List.replicate 9 (.conn 0) ++ caller 1 newPost.call 3

set_option maxRecDepth 100000 in
theorem between_plays : (Sys.play between (Sys.new ⟨9092, []⟩ 0)).isSome = true := by decide +kernel

def betweenRun : Timeline ⟨9092, []⟩ 0 := course between between_plays

/-- The answer to the client. -/
def betweenAnswer : Bytes := sent (actsOf 0 (betweenRun.slice 35 42))

def betweenOps : List Operation := [⟨13, 18, .caller 0, .posted firstPost⟩, ⟨26, 45, .caller 1, .posted newPost⟩, ⟨35, 42, .conn 0, .answered askNew 7 betweenAnswer⟩]

theorem between_firstPost : (Operation.mk 13 18 (.caller 0) (.posted firstPost)).In betweenRun :=
  .post (by decide) (by decide) rfl (call_in 13 18 0 firstPost.call (by decide) (by decide) rfl rfl (by decide +kernel) rfl)

set_option maxRecDepth 100000 in
theorem between_post : (Operation.mk 26 45 (.caller 1) (.posted newPost)).In betweenRun :=
  .post (by decide) (by decide) rfl (call_in 26 45 1 newPost.call (by decide) (by decide) rfl rfl (by decide +kernel) rfl)

set_option maxRecDepth 100000 in
theorem between_list : (Operation.mk 35 42 (.conn 0) (.answered askNew 7 betweenAnswer)).In betweenRun :=
  .request (by decide) (by decide) (exchange_in 34 42 0 askNew 7 (by decide) (by decide) askNew_wf (by decide +kernel)) (.listOffsets ..)
    (roomy_of (by decide +kernel) (by decide +kernel))

set_option maxRecDepth 100000 in
theorem between_ops : Operations betweenRun betweenOps := by
  refine ⟨?_, ?_, all_in (by decide +kernel)⟩
  · intro o ho
    simp only [betweenOps, List.mem_cons, List.not_mem_nil, or_false] at ho
    rcases ho with rfl | rfl | rfl
    exacts [between_firstPost, between_post, between_list]
  · simp [betweenOps]

set_option synthInstance.maxSize 1000 in
set_option maxRecDepth 100000 in
/-- The client reads: partition 0 exists, and its end is at offset 0. -/
theorem between_answer : ((Client.response Client.listOffsets betweenAnswer).map fun x => (x.1.2.topics.map fun t => t.partitions.map fun p => (p.errorCode, p.offset))) =
    some [[(0, 0)]] := by decide +kernel

/-- Every log has a record, and no more than `n`. -/
def Filled (n : Nat) (d : Data) : Prop := ∀ t p l, d.log t p = some l → l ≠ [] ∧ l.length ≤ n

theorem Filled.post {n : Nat} {d : Data} (h : Filled n d) (t : Bytes) (p : I32) (r : Record) : Filled (n + 1) (d.post t p r) := by
  intro t' p' l hl
  unfold Data.post at hl
  dsimp only at hl
  split at hl
  · cases hl
    refine ⟨by simp, ?_⟩
    cases e : d.log t p with
    | none => simp
    | some l0 => have := (h t p l0 e).2; simp; omega
  · exact ⟨(h t' p' l hl).1, Nat.le_succ_of_le (h t' p' l hl).2⟩

/-- If every post is one part, then no client reads that a partition exists and has no record. -/
theorem filled_legal {l : List (Use × Int × Int)} {d d' : Data} {n : Nat} (hl : Legal d l d') (hd : Filled n d) (hn : n + l.length < 2 ^ 64)
    (h : ∀ x ∈ l, (∃ t p k v e, x.1 = .post t p k v e) ∨ ∃ q a, x.1 = .listOffsets q a) :
    ∀ x ∈ l, ∀ (r : I32) (t : Bytes) (p : I32) (a : List ListOffsetsRespTopic), x.1 = .listOffsets ⟨r, [⟨t, [⟨p, -1⟩]⟩]⟩ a →
      (a.map fun t => t.partitions.map fun p => (p.errorCode, p.offset)) ≠ [[(0, 0)]] := by
  induction hl generalizing n with
  | nil => intro x hx; cases hx
  | @cons d d1 d' u c c' l hs _ ih =>
    rw [List.length_cons] at hn
    have hd1 : Filled (n + 1) d1 := by
      rcases (show (∃ t p k v e, u = .post t p k v e) ∨ ∃ q a, u = .listOffsets q a from h _ (List.mem_cons_self ..)) with ⟨t, p, k, v, e, rfl⟩ | ⟨q, a, rfl⟩
      · obtain ⟨r, _, _, _, rfl, _⟩ := hs
        exact hd.post _ _ _
      · rw [hs.1]
        exact fun t p l hl => ⟨(hd t p l hl).1, Nat.le_succ_of_le (hd t p l hl).2⟩
    intro x hx r t p a e
    rcases List.mem_cons.1 hx with rfl | hx
    · dsimp only at e
      subst e
      obtain ⟨_, hf⟩ := hs
      cases hf with
      | cons h1 h2 =>
        cases h2
        next rt =>
        obtain ⟨_, h3⟩ := h1
        cases hq : rt.partitions with
        | nil => rw [hq] at h3; cases h3
        | cons rp rps =>
          rw [hq] at h3
          cases h3 with
          | cons h4 h5 =>
            cases h5
            obtain ⟨ns, _, _, rfl⟩ := h4
            simp only [List.map_cons, List.map_nil, hq]
            cases e : d.log t p with
            | none => simp [listReply]
            | some l0 =>
              obtain ⟨g1, g2⟩ := hd t p l0 e
              have g3 : l0.length ≠ 0 := fun e => g1 (List.length_eq_zero_iff.1 e)
              simp only [listReply]
              rw [if_pos (by decide)]
              intro he
              simp only [List.cons.injEq, Prod.mk.injEq, and_true, true_and] at he
              have := congrArg BitVec.toNat he
              rw [BitVec.toNat_ofNat, Nat.mod_eq_of_lt (by omega)] at this
              exact g3 this
    · exact ih hd1 (by omega) (fun x hx => h x (List.mem_cons_of_mem _ hx)) x hx r t p a e

/-- C94 is false if a post is one part, like a request: while the mock's first post to topic "u" is under way, a client reads that the partition exists and is empty,
which it is neither before the post nor after it. -/
theorem C94_false : ∃ (H : Timeline ⟨9092, []⟩ 0) (ops : List Operation), Operations H ops ∧
    ¬ ∃ lin : List Point, (∀ x ∈ lin, ops[x.index]? = some x.op) ∧
      (∀ j o, ops[j]? = some o → ∃ u, Received o.what u ∧ (lin.filter fun x => x.index = j).map (·.use) = [u]) ∧
      (lin.Pairwise fun x y => ¬ y.op.finish ≤ x.op.start) ∧
      Legal Data.empty (lin.map fun x => (x.use, (H.st x.op.start).clock, (H.st x.op.finish).clock)) (data (H.st H.length)) := by
  refine ⟨betweenRun, betweenOps, between_ops, fun ⟨lin, h1, h2, _, h4⟩ => ?_⟩
  have hrec : ∀ x ∈ lin, Received x.op.what x.use := by
    intro x hx
    obtain ⟨u, hu, e⟩ := h2 _ _ (h1 x hx)
    have : x.use ∈ (lin.filter fun y => y.index = x.index).map (·.use) := List.mem_map.2 ⟨x, List.mem_filter.2 ⟨hx, by simp⟩, rfl⟩
    rw [e, List.mem_singleton] at this
    rw [this]; exact hu
  have hop : ∀ x ∈ lin, x.op ∈ betweenOps := fun x hx => List.mem_of_getElem? (h1 x hx)
  have hlen : lin.length ≤ 3 := by
    have hn : (lin.map (·.index)).Nodup := by
      rw [List.nodup_iff_count_le_one]
      intro j
      rw [List.count_eq_countP, List.countP_map, List.countP_eq_length_filter]
      cases e : betweenOps[j]? with
      | none =>
        rw [List.filter_eq_nil_iff.2]
        · simp
        · intro x hx hj
          have := h1 x hx
          simp only [Function.comp, beq_iff_eq] at hj
          rw [hj, e] at this
          cases this
      | some o =>
        obtain ⟨u, _, e'⟩ := h2 j o e
        have := congrArg List.length e'
        rw [List.length_map] at this
        simp only [List.length_singleton] at this
        have h' : (fun x : Point => decide (x.index = j)) = ((fun x => x == j) ∘ fun x : Point => x.index) := by
          funext x; simp [Function.comp]
          by_cases hx : x.index = j <;> simp [hx]
        rw [← h']
        omega
    have hs : (lin.map (·.index)) ⊆ List.range 3 := by
      intro j hj
      obtain ⟨x, hx, rfl⟩ := List.mem_map.1 hj
      have := (List.getElem?_eq_some_iff.1 (h1 x hx)).1
      exact List.mem_range.2 this
    have := (hn.subperm hs).length_le
    simpa using this
  obtain ⟨u, hu, e⟩ := h2 2 _ rfl
  cases hu with
  | @listOffsets _ _ _ x hx =>
    obtain ⟨y, hy, e'⟩ := List.mem_map.1 (show Use.listOffsets _ x.topics ∈ _ from e ▸ List.mem_singleton_self _)
    have hy := (List.mem_filter.1 hy).1
    refine filled_legal (n := 0) h4 (fun _ _ _ h => by cases h) (by rw [List.length_map]; omega) ?_ _ (List.mem_map_of_mem hy) _ _ _ _ e' ?_
    · intro z hz
      obtain ⟨w, hw, rfl⟩ := List.mem_map.1 hz
      have h5 := hrec w hw
      have h6 := hop w hw
      generalize w.op = o at h5 h6
      simp only [betweenOps, List.mem_cons, List.not_mem_nil, or_false] at h6
      rcases h6 with rfl | rfl | rfl
      · generalize w.use = v at h5
        cases h5
        exact .inl ⟨_, _, _, _, _, rfl⟩
      · generalize w.use = v at h5
        cases h5
        exact .inl ⟨_, _, _, _, _, rfl⟩
      · generalize w.use = v at h5
        cases h5 with
        | listOffsets h => exact .inr ⟨_, _, rfl⟩
        | other h => cases h
    · have := between_answer
      rw [hx] at this
      simpa using this
  | other h => cases h

/-! ### A request about several partitions is not one part -/

/-- A client asks for the ends of the logs of topics "t" and "u". When it has been told the one, a record is posted to "t", then one to "u". -/
def apart : List Pick := bootAndPost ++ accepts 0 ++ asks 0 askEnds 7 ++ [.conn 0] ++ torn ++ [.conn 0]

set_option maxRecDepth 100000 in
theorem apart_plays : (Sys.play apart (Sys.new ⟨9092, []⟩ 0)).isSome = true := by decide +kernel

def apartRun : Timeline ⟨9092, []⟩ 0 := course apart apart_plays

/-- The answer to the client. -/
def apartAnswer : Bytes := sent (actsOf 0 (apartRun.slice 32 55))

/-- The post of a record to topic "u". -/
def otherPost : PostCall := ⟨[117], 0, none, some [4], none⟩

def apartOps : List Operation := [⟨13, 18, .caller 0, .posted firstPost⟩, ⟨32, 55, .conn 0, .answered askEnds 7 apartAnswer⟩, ⟨36, 41, .caller 1, .posted posting⟩,
  ⟨42, 47, .caller 1, .posted otherPost⟩]

theorem apart_firstPost : (Operation.mk 13 18 (.caller 0) (.posted firstPost)).In apartRun :=
  .post (by decide) (by decide) rfl (call_in 13 18 0 firstPost.call (by decide) (by decide) rfl rfl (by decide +kernel) rfl)

set_option maxRecDepth 100000 in
theorem apart_list : (Operation.mk 32 55 (.conn 0) (.answered askEnds 7 apartAnswer)).In apartRun :=
  .request (by decide) (by decide) (exchange_in 31 55 0 askEnds 7 (by decide) (by decide) askEnds_wf (by decide +kernel)) (.listOffsets ..)
    (roomy_of (by decide +kernel) (by decide +kernel))

set_option maxRecDepth 100000 in
theorem apart_post : (Operation.mk 36 41 (.caller 1) (.posted posting)).In apartRun :=
  .post (by decide) (by decide) rfl (call_in 36 41 1 posting.call (by decide) (by decide) rfl rfl (by decide +kernel) rfl)

set_option maxRecDepth 100000 in
theorem apart_other : (Operation.mk 42 47 (.caller 1) (.posted otherPost)).In apartRun :=
  .post (by decide) (by decide) rfl (call_in 42 47 1 otherPost.call (by decide) (by decide) rfl rfl (by decide +kernel) rfl)

set_option maxRecDepth 100000 in
/-- The hypotheses of `C94_linearizable_partial`, with a request about two partitions. -/
theorem apart_ops : Operations apartRun apartOps := by
  refine ⟨?_, ?_, all_in (by decide +kernel)⟩
  · intro o ho
    simp only [apartOps, List.mem_cons, List.not_mem_nil, or_false] at ho
    rcases ho with rfl | rfl | rfl | rfl
    exacts [apart_firstPost, apart_list, apart_post, apart_other]
  · simp [apartOps]

set_option synthInstance.maxSize 1000 in
set_option maxRecDepth 100000 in
/-- The client reads that each of the logs has one record. -/
theorem apart_answer : ((Client.response Client.listOffsets apartAnswer).map fun x => (x.1.2.topics.map fun t => t.partitions.map fun p => (p.errorCode, p.offset))) =
    some [[(0, 1)], [(0, 1)]] := by decide +kernel

/-- The use adds a record to this partition. -/
def postsTo (t : Bytes) (p : I32) : Use → Bool
  | .post t' n _ _ _ => decide (t' = t ∧ BitVec.ofInt 32 n = p)
  | _ => false

def Data.size (d : Data) (t : Bytes) (p : I32) : Nat := ((d.log t p).getD []).length

/-- Only posts make logs longer. -/
theorem legal_size {l : List (Use × Int × Int)} {d d' : Data} (h : Legal d l d') (t : Bytes) (p : I32) : Data.size d' t p = Data.size d t p + (l.filter fun x => postsTo t p x.1).length := by
  induction h with
  | nil => simp
  | @cons d d1 d' u c c' l hs _ ih =>
    rw [ih, List.filter_cons]
    have same : ∀ {d' : Data}, d'.log = d.log → Data.size d' t p = Data.size d t p := by
      intro d' e; unfold Data.size; rw [e]
    cases u with
    | post t' n k v e =>
      obtain ⟨r, _, _, _, rfl, _⟩ := hs
      by_cases e : t' = t ∧ BitVec.ofInt 32 n = p
      · have hs : Data.size (d.post t' (BitVec.ofInt 32 n) r) t p = Data.size d t p + 1 := by
          rw [e.1, e.2]; simp [Data.size, Data.post]
        rw [hs, if_pos (by simpa [postsTo] using e), List.length_cons]
        omega
      · have hs : Data.size (d.post t' (BitVec.ofInt 32 n) r) t p = Data.size d t p := by
          have e' : ¬ (t = t' ∧ p = BitVec.ofInt 32 n) := fun h => e ⟨h.1.symm, h.2.symm⟩
          simp only [Data.size, Data.post]
          rw [if_neg e']
        rw [hs, if_neg (by simpa [postsTo] using e)]
    | create n ts =>
      have e : d1 = d.create (BitVec.ofInt 32 n) ts := hs
      have : Data.size d1 t p = Data.size d t p := by
        rw [e]
        simp only [Data.size, Data.create]
        split <;> rfl
      rw [this]; rfl
    | fetch => rw [hs.2]; rfl
    | listOffsets => rw [hs.1]; rfl
    | commit => rw [hs.2]; rfl
    | offsetFetch => rw [hs.1]; rfl
    | assign => rw [hs.1]; rfl
    | other => rw [show d1 = d from hs]; rfl
    | reset t' n g o => rw [show d1 = _ from hs]; rfl

theorem legal_append {l l' : List (Use × Int × Int)} {d d' : Data} (h : Legal d (l ++ l') d') : ∃ d1, Legal d l d1 ∧ Legal d1 l' d' := by
  induction l generalizing d with
  | nil => exact ⟨d, .nil d, h⟩
  | cons x l ih =>
    cases h with
    | cons h1 h2 =>
      obtain ⟨d1, h3, h4⟩ := ih h2
      exact ⟨d1, .cons h1 h3, h4⟩

theorem length_of_parts {n m : Nat} {lin : List Point} (h : ∀ x ∈ lin, x.index < n) (hp : ∀ j, (lin.filter fun x => x.index = j).length ≤ m) : lin.length ≤ m * n := by
  induction n generalizing lin with
  | zero =>
    cases lin with
    | nil => simp
    | cons x _ => exact absurd (h x (by simp)) (by omega)
  | succ n ih =>
    have h1 := ih (lin := lin.filter fun x => ¬ x.index = n) (fun x hx => by
      obtain ⟨h2, h3⟩ := List.mem_filter.1 hx
      have := h x h2
      simp only [decide_not, Bool.not_eq_true', decide_eq_false_iff_not] at h3
      omega) (fun j => by
        rw [List.filter_filter]
        have e : ((lin.filter fun x => decide (x.index = j)).filter fun x => decide (¬ x.index = n)).length ≤ m := Nat.le_trans (List.length_filter_le ..) (hp j)
        rw [List.filter_filter] at e
        refine Nat.le_trans (Nat.le_of_eq ?_) e
        congr 2
        funext x
        exact Bool.and_comm ..)
    have h2 := hp n
    have h3 := (List.filter_append_perm (fun x : Point => decide (x.index = n)) lin).length_eq
    rw [List.length_append] at h3
    have h4 : (lin.filter fun x => !decide (x.index = n)).length = (lin.filter fun x => decide (¬ x.index = n)).length := by simp
    rw [Nat.mul_succ]
    omega

/-- What is done, with requests as one part. -/
def Whole (s1 s2 : Sys) (what : Happening) (us : List Use) : Prop := match what with
  | .answered .. => ∃ u, us = [u] ∧ Received what u
  | _ => Parts s1 s2 what us

theorem two_le_length {α : Type} {l : List α} {x y : α} (hx : x ∈ l) (hy : y ∈ l) (h : x ≠ y) : 2 ≤ l.length := by
  rcases l with _ | ⟨a, _ | ⟨b, l⟩⟩
  · cases hx
  · cases List.mem_singleton.1 hx; cases List.mem_singleton.1 hy; exact absurd rfl h
  · simp

/-- C94 is false if a request is one part: a client asks for the ends of two logs and is told that each has one record. But the second record of the first log was posted
before the first record of the second. -/
theorem C94_several_false : ∃ (H : Timeline ⟨9092, []⟩ 0) (ops : List Operation), Operations H ops ∧
    ¬ ∃ lin : List Point, (∀ x ∈ lin, ops[x.index]? = some x.op) ∧
      (∀ j o, ops[j]? = some o → Whole (H.st o.start) (H.st o.finish) o.what ((lin.filter fun x => x.index = j).map (·.use))) ∧
      (lin.Pairwise fun x y => ¬ y.op.finish ≤ x.op.start) ∧
      Legal Data.empty (lin.map fun x => (x.use, (H.st x.op.start).clock, (H.st x.op.finish).clock)) (data (H.st H.length)) := by
  refine ⟨apartRun, apartOps, apart_ops, fun ⟨lin, h1, h2, h3, h4⟩ => ?_⟩
  have hparts : ∀ {s1 s2 : Sys} {us : List Use} {call : PostCall}, Whole s1 s2 (.posted call) us →
      us = [.create call.partition [call.topic], .post call.topic call.partition call.key call.value call.extended] ∨
      us = [.post call.topic call.partition call.key call.value call.extended] := by
    intro s1 s2 us call h
    cases h
    · exact .inl rfl
    · exact .inr rfl
  -- the points
  have point : ∀ (j : Nat) call, (apartOps[j]?.map (·.what)) = some (.posted call) → ∃ x ∈ lin, x.index = j ∧ x.use = .post call.topic call.partition call.key call.value call.extended := by
    intro j call hj
    obtain ⟨o, ho, e⟩ := Option.map_eq_some_iff.1 hj
    have := h2 j o ho
    rw [e] at this
    obtain ⟨x, hx, e'⟩ := List.mem_map.1 (show Use.post call.topic call.partition call.key call.value call.extended ∈ (lin.filter fun x => x.index = j).map (·.use) by
      rcases hparts this with h | h <;> rw [h] <;> simp)
    obtain ⟨hx1, hx2⟩ := List.mem_filter.1 hx
    exact ⟨x, hx1, by simpa using hx2, e'⟩
  have hlen : lin.length ≤ 2 * 4 := by
    refine length_of_parts (fun x hx => (List.getElem?_eq_some_iff.1 (h1 x hx)).1) fun j => ?_
    cases e : apartOps[j]? with
    | none =>
      rw [List.filter_eq_nil_iff.2]
      · simp
      · intro x hx hj
        have := h1 x hx
        rw [of_decide_eq_true hj, e] at this
        cases this
    | some o =>
      have := h2 j o e
      rw [← List.length_map (f := fun x : Point => x.use)]
      generalize (lin.filter fun x => x.index = j).map (·.use) = us at this
      have ho := List.mem_of_getElem? e
      simp only [apartOps, List.mem_cons, List.not_mem_nil, or_false] at ho
      rcases ho with rfl | rfl | rfl | rfl
      · rcases hparts this with h | h <;> rw [h] <;> simp
      · obtain ⟨u, rfl, _⟩ := this; simp
      · rcases hparts this with h | h <;> rw [h] <;> simp
      · rcases hparts this with h | h <;> rw [h] <;> simp
  obtain ⟨u, hu, hrec⟩ := h2 1 _ rfl
  obtain ⟨x, hx, e⟩ := List.mem_map.1 (show u ∈ (lin.filter fun x => x.index = 1).map (·.use) by rw [hu]; simp)
  obtain ⟨hx, hx1⟩ := List.mem_filter.1 hx
  have hx1 : x.index = 1 := of_decide_eq_true hx1
  obtain ⟨w, hw, w1, w2⟩ := point 0 firstPost rfl
  obtain ⟨z, hz, z1, z2⟩ := point 2 posting rfl
  obtain ⟨y, hy, y1, y2⟩ := point 3 otherPost rfl
  have opw : w.op = ⟨13, 18, .caller 0, .posted firstPost⟩ := by have := h1 w hw; rw [w1] at this; exact (Option.some.inj this).symm
  have opz : z.op = ⟨36, 41, .caller 1, .posted posting⟩ := by have := h1 z hz; rw [z1] at this; exact (Option.some.inj this).symm
  cases hrec with
  | @listOffsets _ _ _ ans hans =>
    obtain ⟨l1, l2, rfl⟩ := List.append_of_mem hx
    rw [List.map_append] at h4
    obtain ⟨d1, g1, g2⟩ := legal_append h4
    rw [List.map_cons, e] at g2
    have hd := apart_answer
    rw [hans, Option.map_some, Option.some.injEq] at hd
    obtain ⟨topics⟩ := ans
    dsimp only at *
    cases g2 with
    | cons g2 _ =>
    obtain ⟨_, g3⟩ := g2
    cases g3 with
    | @cons _ rt1 _ _ g4 g5 =>
    cases g5 with
    | @cons _ rt2 _ _ g6 g7 =>
    cases g7
    obtain ⟨_, g4⟩ := g4
    obtain ⟨_, g6⟩ := g6
    obtain ⟨rp1, _, ⟨ns1, _, _, g4⟩, g8, e1⟩ := List.forall₂_cons_left_iff.1 g4
    cases g8
    obtain ⟨rp2, _, ⟨ns2, _, _, g6⟩, g8, e2⟩ := List.forall₂_cons_left_iff.1 g6
    cases g8
    simp only [List.map_cons, List.map_nil, e1, e2, List.cons.injEq, Prod.mk.injEq, and_true] at hd
    have size : ∀ {t : Bytes} {p : I32} {rp : ListOffsetsRespPartition} {now : I64}, rp = listReply (d1.log t p) now ⟨p, -1⟩ → rp.errorCode = 0 → rp.offset = 1 →
        (l1.filter fun x => postsTo t p x.use).length = 1 := by
      intro t p rp now hrp hcode hoff
      have hs := legal_size g1 t p
      rw [List.filter_map, List.length_map] at hs
      have hle : ((l1.filter fun x => postsTo t p x.use).length) ≤ 8 := by
        have := List.length_filter_le (fun x : Point => postsTo t p x.use) l1
        rw [List.length_append] at hlen
        omega
      cases hlog : d1.log t p with
      | none => rw [hrp, hlog] at hcode; cases hcode
      | some l =>
        rw [hrp, hlog] at hoff
        unfold listReply at hoff
        dsimp only at hoff
        rw [if_pos (by decide)] at hoff
        have h9 : l.length = (l1.filter fun x => postsTo t p x.use).length := by
          unfold Data.size at hs
          rw [hlog] at hs
          rw [show (some l).getD [] = l from rfl] at hs
          rw [hs]
          exact Nat.zero_add _
        have := congrArg BitVec.toNat hoff
        dsimp only at this
        rw [BitVec.toNat_ofNat, Nat.mod_eq_of_lt (by omega)] at this
        rw [← h9]; exact this
    have s1 : (l1.filter fun x => postsTo [116] 0 x.use).length = 1 := size g4 hd.1.1 hd.1.2
    have s2 : (l1.filter fun x => postsTo [117] 0 x.use).length = 1 := size g6 hd.2.1 hd.2.2
    -- the post to the second log comes first
    obtain ⟨v, hv⟩ := List.exists_mem_of_length_pos (l := l1.filter fun x => postsTo [117] 0 x.use) (by omega)
    obtain ⟨hv, v1⟩ := List.mem_filter.1 hv
    have hvl : v ∈ l1 ++ x :: l2 := List.mem_append_left _ hv
    have opv : v.op.start = 42 := by
      have ho := h1 v hvl
      have hw := h2 _ _ ho
      have hm : v.use ∈ ((l1 ++ x :: l2).filter fun y => y.index = v.index).map (·.use) := List.mem_map.2 ⟨v, List.mem_filter.2 ⟨hvl, by simp⟩, rfl⟩
      have hmem := List.mem_of_getElem? ho
      generalize ((l1 ++ x :: l2).filter fun y => y.index = v.index).map (·.use) = us at hw hm
      generalize v.op = o at *
      generalize v.use = vu at *
      simp only [apartOps, List.mem_cons, List.not_mem_nil, or_false] at hmem
      have no : ∀ call : PostCall, call.topic = [116] → us = [.create call.partition [call.topic], .post call.topic call.partition call.key call.value call.extended] ∨
          us = [.post call.topic call.partition call.key call.value call.extended] → False := by
        intro call ht e
        have hm : vu = .create call.partition [call.topic] ∨ vu = .post call.topic call.partition call.key call.value call.extended := by
          rcases e with e | e <;> rw [e] at hm
          · simpa using hm
          · exact .inr (by simpa using hm)
        rcases hm with rfl | rfl
        · cases v1
        · simp [postsTo, ht] at v1
      rcases hmem with rfl | rfl | rfl | rfl
      · exact (no firstPost rfl (hparts hw)).elim
      · obtain ⟨u, rfl, hr⟩ := hw
        cases List.mem_singleton.1 hm
        cases hr with
        | listOffsets => cases v1
        | other => cases v1
      · exact (no posting rfl (hparts hw)).elim
      · rfl
    rw [List.pairwise_append, List.pairwise_cons] at h3
    obtain ⟨p1, ⟨p2, p3⟩, p4⟩ := h3
    have zx : z ≠ x := fun e => by rw [e] at z1; omega
    have wx : w ≠ x := fun e => by rw [e] at w1; omega
    -- so does the second post to the first log, and the first
    have hz1 : z ∈ l1 := by
      rcases List.mem_append.1 hz with h | h
      · exact h
      · have := p4 v hv z h
        rw [opv, opz] at this
        exact absurd (by decide) this
    have hw1 : w ∈ l1 := by
      rcases List.mem_append.1 hw with h | h
      · exact h
      · have := p4 z hz1 w h
        rw [opw, opz] at this
        exact absurd (by decide) this
    have := two_le_length (l := l1.filter fun x => postsTo [116] 0 x.use) (x := w) (y := z) (List.mem_filter.2 ⟨hw1, by rw [w2]; decide⟩) (List.mem_filter.2 ⟨hz1, by rw [z2]; decide⟩) (fun e => by rw [e] at w1; omega)
    omega
  | other h => cases h

end KM.Props
