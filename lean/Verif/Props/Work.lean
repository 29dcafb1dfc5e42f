import Verif.Props.Visible
import Verif.Props.FetchLive
/-
Property C123: the work for a request is bounded by the request and the data.
-/
namespace KM.Props
open KM Spec

/-! ### What the answers of the store are bounded by -/

/-- The result of an action, seen from a later state: the number of records is at most what there is then, and so on. -/
def within (wf : World) : (a : Act) → a.Resp → Prop
  | .numRecords t p, r => r ≤ (wf.log t p).length
  | .rangeTopics, r => r.length ≤ wf.ds.length
  | .order ks, r => r.Perm ks
  | _, _ => True

theorem step_topics {a : Act} {w w' : World} {r : a.Resp} (h : a.step w r w') : w.ds.length ≤ w'.ds.length := by
  have hk : ∀ ds : Store, ds.length = (GoMap.keys ds).length := fun ds => by simp [GoMap.keys]
  have he : w' = w → w.ds.length ≤ w'.ds.length := fun e => by rw [e]
  have hu : ∀ {t p f}, w' = w.withDs (w.ds.updPart t p f) → w.ds.length ≤ w'.ds.length := by
    intro t p f e
    rw [hk, hk, e]
    show _ ≤ (GoMap.keys (w.ds.updPart t p f)).length
    rw [Store.keys_updPart]
  cases a <;> simp only [Act.step] at h
  case createTopic t =>
    rw [hk, hk, h]
    show _ ≤ (GoMap.keys (w.ds.createTopic t)).length
    rw [Store.keys_createTopic]
    split <;> simp
  case createPartition t p =>
    rw [hk, hk, h.2]
    show _ ≤ (GoMap.keys (w.ds.createPartition t p)).length
    rw [Store.keys_createPartition]
  case post t p rec => exact hu h.2
  case commit t p g o => exact hu h.2
  case setOffset t p g o => exact hu h.2
  case groupCommitted t p g => obtain ⟨_, _, _, e⟩ := h; exact hu e
  case sleep d => obtain ⟨c, h1, rfl⟩ := h; exact Nat.le_refl _
  case tick d => subst h; exact Nat.le_refl _
  case cancel => subst h; exact Nat.le_refl _
  all_goals first
    | exact he h | exact he h.1 | exact he h.2.1 | (obtain ⟨_, _, _, e⟩ := h; exact he e) | (obtain ⟨_, _, e, _⟩ := h; exact he e)

theorem steps_topics {w w' : World} {tr : List Ev} (h : Steps w tr w') : w.ds.length ≤ w'.ds.length := by
  induction h with
  | nil => exact Nat.le_refl _
  | cons e hst _ ih => exact Nat.le_trans (step_topics hst) ih

theorem step_within {a : Act} {w w' wf : World} {tr : List Ev} {r : a.Resp} (h : a.step w r w') (hs : Steps w' tr wf) : within wf a r := by
  cases a <;> simp only [Act.step] at h <;> try trivial
  case numRecords t p =>
    obtain ⟨kp, e, e1, e2⟩ := h
    subst e1; subst e2
    show kp.records.length ≤ (wf.log t p).length
    rw [hs.log, List.length_append]
    have : w'.log t p = kp.records := by simp [World.log, e]
    rw [this]; omega
  case rangeTopics =>
    obtain ⟨rfl, h2⟩ := h
    have := steps_topics hs
    show r.length ≤ _
    rw [h2.length_eq, show (GoMap.keys w'.ds).length = w'.ds.length by simp [GoMap.keys]]
    exact this
  case order ks => exact h.2

theorem steps_within {w wf : World} {tr : List Ev} (h : Steps w tr wf) : ∀ e ∈ own tr, within wf e.act e.resp := by
  induction h with
  | nil => intro e he; cases he
  | cons e hst hs ih =>
    obtain ⟨m, a, r⟩ := e
    intro x hx
    cases m with
    | false => exact ih x hx
    | true =>
      rw [own_mine] at hx
      rcases List.mem_cons.1 hx with rfl | hx
      · exact step_within hst hs
      · exact ih x hx

/-! ### The handlers -/

/-- Every action counts one, a sleep `S`. -/
def weigh (S : Nat) : Act → Nat
  | .sleep _ => S
  | _ => 1

variable {S : Nat} {wf : World}

theorem commit_work (q : CommitRequest) :
    (offsetCommit q).Cost (weigh S) (within wf) (fun _ => True) (q.topics.length + 2 * (q.topics.map fun t => t.partitions.length).sum) := by
  have hp : ∀ t kt par, (commitPartition q.groupId t kt par).Cost (weigh S) (within wf) (fun _ => True) 2 := by
    intro t kt par
    unfold commitPartition
    cases kt with
    | false => trivial
    | true => exact ⟨Nat.le_succ 1, fun kp _ => by cases kp <;> [trivial; exact ⟨Nat.le_refl 1, fun _ _ => trivial⟩]⟩
  refine ((Prog.Cost.forEach q.topics (g := fun t => 1 + 2 * t.partitions.length) ?_).map _ fun _ _ => trivial).mono ?_ fun _ h => h
  · intro t
    refine ⟨by show 1 ≤ _; omega, fun kt _ => ?_⟩
    refine ((Prog.Cost.forEach t.partitions (hp t.name kt)).map _ fun _ _ => trivial).mono ?_ fun _ h => h
    show (t.partitions.map fun _ => 2).sum ≤ 1 + 2 * t.partitions.length - 1
    rw [List.map_const', List.sum_replicate_nat]; omega
  · generalize q.topics = ts
    induction ts with
    | nil => simp
    | cons t ts ih => simp only [List.map_cons, List.sum_cons, List.length_cons]; omega

/-- Look up, count, look at every record at most. -/
theorem scanBack_work (t : Bytes) (p : I32) (want : I64) (n : Nat) (ts : I64) :
    (scanBack t p want n ts).Cost (weigh S) (within wf) (fun _ => True) n := by
  induction n generalizing ts with
  | zero => trivial
  | succ n ih =>
    refine ⟨by show 1 ≤ _; omega, fun r _ => ?_⟩
    cases r with
    | none => trivial
    | some msg =>
      show Prog.Cost _ _ _ _ (if _ then _ else _)
      split
      · trivial
      · exact ih _

theorem listOffsets_work (q : ListOffsetsRequest) :
    (listOffsets q).Cost (weigh S) (within wf) (fun _ => True)
      (q.topics.length + (q.topics.map fun t => (t.partitions.map fun p => 3 + (wf.log t.name p.partitionIndex).length).sum).sum) := by
  have hf : ∀ t par, (listOffsetsFound t par).Cost (weigh S) (within wf) (fun _ => True) (2 + (wf.log t par.partitionIndex).length) := by
    intro t par
    unfold listOffsetsFound
    dsimp only
    split
    · exact ⟨by show 1 ≤ _; omega, fun _ _ => ⟨by show 1 ≤ _ - 1; omega, fun _ _ => trivial⟩⟩
    · split
      · refine ⟨by show 1 ≤ _; omega, fun n hn => ?_⟩
        have hn : n ≤ (wf.log t par.partitionIndex).length := hn
        show Prog.Cost _ _ _ _ (if _ then _ else _)
        split
        · trivial
        · refine ⟨by show 1 ≤ _ - 1; omega, fun r _ => ?_⟩
          cases r <;> trivial
      · refine ⟨by show 1 ≤ _; omega, fun n hn => ?_⟩
        have hn : n ≤ (wf.log t par.partitionIndex).length := hn
        exact ((scanBack_work t _ _ n 0).map _ fun _ _ => trivial).mono (Nat.le_trans hn (by show _ ≤ 2 + (wf.log t par.partitionIndex).length - 1; omega)) fun _ h => h
  have hp : ∀ t kt par, (listOffsetsPartition t kt par).Cost (weigh S) (within wf) (fun _ => True) (3 + (wf.log t par.partitionIndex).length) := by
    intro t kt par
    unfold listOffsetsPartition
    cases kt with
    | false => trivial
    | true =>
      refine ⟨by show 1 ≤ _; omega, fun kp _ => ?_⟩
      cases kp with
      | false => trivial
      | true => exact (hf t par).mono (by show _ ≤ _ - 1; omega) fun _ h => h
  refine ((Prog.Cost.forEach q.topics (g := fun t => 1 + (t.partitions.map fun p => 3 + (wf.log t.name p.partitionIndex).length).sum) ?_).map _ fun _ _ => trivial).mono ?_
    fun _ h => h
  · intro t
    refine ⟨by show 1 ≤ _; omega, fun kt _ => ?_⟩
    exact ((Prog.Cost.forEach t.partitions (hp t.name kt)).map _ fun _ _ => trivial).mono (by show _ ≤ 1 + _ - 1; omega) fun _ h => h
  · generalize q.topics = ts
    induction ts with
    | nil => simp
    | cons t ts ih => simp only [List.map_cons, List.sum_cons, List.length_cons]; omega

/-- Number of partitions collected. -/
def collected (data : List (Bytes × List (Bytes × I32))) : Nat := ((GoMap.keys data).map fun n => ((GoMap.get data n).getD []).length).sum

theorem sum_bump {f g : Bytes → Nat} {x : Bytes} {l : List Bytes} (hl : l.Nodup) (h : ∀ y, y ≠ x → g y = f y) (hx : g x ≤ f x + 1) :
    (l.map g).sum ≤ (l.map f).sum + 1 := by
  have same : ∀ l : List Bytes, x ∉ l → (l.map g).sum = (l.map f).sum := by
    intro l hn
    congr 1
    exact List.map_congr_left fun y hy => h y fun e => hn (e ▸ hy)
  induction l with
  | nil => simp
  | cons y l ih =>
    obtain ⟨h1, h2⟩ := List.nodup_cons.1 hl
    simp only [List.map_cons, List.sum_cons]
    by_cases e : y = x
    · subst e; rw [same l h1]; omega
    · have := ih h2; rw [h y e]; omega

theorem collected_add (data : List (Bytes × List (Bytes × I32))) (n : Bytes) (p : I32) (hd : (GoMap.keys data).Nodup) :
    (GoMap.keys (addPartition data n p)).Nodup ∧ collected (addPartition data n p) ≤ collected data + 1 := by
  refine ⟨GoMap.nodup_set hd _ _, ?_⟩
  unfold collected
  have hb : ∀ l : List Bytes, l.Nodup → (l.map fun m => ((GoMap.get (addPartition data n p) m).getD []).length).sum ≤ (l.map fun m => ((GoMap.get data m).getD []).length).sum + 1 := by
    intro l hl
    refine sum_bump (x := n) hl ?_ ?_
    · intro y hy
      unfold addPartition
      rw [GoMap.get_set_ne _ _ (Ne.symm hy)]
    · unfold addPartition
      rw [GoMap.get_set_self]; simp
  have hk : GoMap.keys (addPartition data n p) = if (GoMap.get data n).isSome then GoMap.keys data else GoMap.keys data ++ [n] := GoMap.keys_set _ _ _
  rw [hk]
  split
  · exact hb _ hd
  · rename_i hg
    have hnd : (GoMap.keys data ++ [n]).Nodup := by
      have := GoMap.nodup_set hd n ((GoMap.get data n).getD [] ++ [(n, p)])
      rw [GoMap.keys_set, if_neg hg] at this
      exact this
    refine Nat.le_trans (hb _ hnd) ?_
    have hg : GoMap.get data n = none := by cases e : GoMap.get data n <;> simp_all
    simp [hg]

theorem offsetFetchPartitions_work (n : Bytes) (ps : List I32) (data : List (Bytes × List (Bytes × I32))) (m : Nat)
    (hd : (GoMap.keys data).Nodup ∧ collected data ≤ m) :
    (offsetFetchPartitions n ps data).Cost (weigh S) (within wf) (fun d => (GoMap.keys d).Nodup ∧ collected d ≤ m + ps.length) ps.length := by
  induction ps generalizing data m with
  | nil => exact hd
  | cons p ps ih =>
    refine ⟨by show 1 ≤ _; simp, fun found _ => ?_⟩
    refine (ih _ (m + 1) ?_).mono (by show ps.length ≤ _ - 1; simp) fun d h => ⟨h.1, by have := h.2; simp only [List.length_cons]; omega⟩
    split
    · obtain ⟨a, b⟩ := collected_add data n p hd.1
      exact ⟨a, by omega⟩
    · exact ⟨hd.1, by omega⟩

theorem offsetFetchTopics_work (ts : List OffsetFetchTopic) (data : List (Bytes × List (Bytes × I32))) (m : Nat)
    (hd : (GoMap.keys data).Nodup ∧ collected data ≤ m) :
    (offsetFetchTopics ts data).Cost (weigh S) (within wf) (fun d => (GoMap.keys d).Nodup ∧ collected d ≤ m + (ts.map fun t => t.partitionIndexes.length).sum)
      (ts.length + (ts.map fun t => t.partitionIndexes.length).sum) := by
  induction ts generalizing data m with
  | nil => exact hd
  | cons t ts ih =>
    simp only [List.map_cons, List.sum_cons, List.length_cons]
    refine ⟨by show 1 ≤ _; omega, fun kt _ => ?_⟩
    cases kt with
    | false => exact (ih data m hd).mono (by show _ ≤ _ - 1; omega) fun d h => ⟨h.1, by have := h.2; omega⟩
    | true =>
      refine ((offsetFetchPartitions_work t.name t.partitionIndexes data m hd).bind fun d h => ih d _ h).mono (by show _ ≤ _ - 1; omega) fun d h => ⟨h.1, by have := h.2; omega⟩

theorem offsetFetch_work (q : OffsetFetchRequest) :
    (offsetFetch q).Cost (weigh S) (within wf) (fun _ => True) (1 + q.topics.length + 3 * (q.topics.map fun t => t.partitionIndexes.length).sum) := by
  refine ((offsetFetchTopics_work q.topics [] 0 ⟨List.nodup_nil, by simp [collected, GoMap.keys]⟩).bind (m := 1 + 2 * (q.topics.map fun t => t.partitionIndexes.length).sum)
    fun d hd => ?_).mono (by omega) fun _ h => h
  refine ⟨by show 1 ≤ _; omega, fun names hn => ?_⟩
  have hn : names.Perm (GoMap.keys d) := hn
  have he : ∀ kp, (offsetFetchEntry q.groupId kp).Cost (weigh S) (within wf) (fun _ => True) 2 := fun kp => ⟨Nat.le_succ 1, fun _ _ => ⟨Nat.le_refl 1, fun _ _ => trivial⟩⟩
  refine ((Prog.Cost.forEach names (g := fun n => 2 * ((GoMap.get d n).getD []).length) ?_).map _ fun _ _ => trivial).mono ?_ fun _ h => h
  · intro n
    refine ((Prog.Cost.forEach _ he).map _ fun _ _ => trivial).mono ?_ fun _ h => h
    rw [List.map_const', List.sum_replicate_nat]; omega
  · have h1 : (names.map fun n => 2 * ((GoMap.get d n).getD []).length).sum = 2 * collected d := by
      rw [(hn.map _).sum_nat]
      unfold collected
      generalize GoMap.keys d = l
      induction l with
      | nil => simp
      | cons x l ih => simp only [List.map_cons, List.sum_cons, ih]; omega
    have := hd.2
    show _ ≤ 1 + _ - 1
    omega

theorem assigned_work : assignedPartitions.Cost (weigh S) (within wf) (fun _ => True) (1 + wf.ds.length) := by
  refine ⟨by show 1 ≤ _; omega, fun names hn => ?_⟩
  have hn : names.length ≤ wf.ds.length := hn
  refine (Prog.Cost.forEach names (g := fun _ => 1) ?_).mono ?_ fun _ h => h
  · exact fun n => ⟨Nat.le_refl 1, fun _ _ => trivial⟩
  rw [List.map_const', List.sum_replicate_nat]
  show _ ≤ 1 + _ - 1
  omega

/-! ### C123 -/

/-- What it takes to answer a request that is not a Fetch, apart from the three writes, when the data are at most what they are in `w`: one look-up per topic, at most
two more actions for each partition of an OffsetCommit and three of an OffsetFetch; three for each partition of a ListOffsets and one for each of its records; one for each topic of the mock for a
SyncGroup. A Fetch is not covered here (`C123_fetch`). -/
def work (w : World) : Request → Nat
  | .offsetCommit q => q.topics.length + 2 * (q.topics.map fun t => t.partitions.length).sum
  | .offsetFetch q => 1 + q.topics.length + 3 * (q.topics.map fun t => t.partitionIndexes.length).sum
  | .listOffsets q => q.topics.length + (q.topics.map fun t => (t.partitions.map fun p => 3 + (w.log t.name p.partitionIndex).length).sum).sum
  | .syncGroup .. => 1 + w.ds.length
  | .apiVersions => 1
  | _ => 0

theorem answer_work (sv : Server) (req : Request) (hf : ∀ q, req ≠ .fetch q) : (answer sv req).Cost (weigh S) (within wf) (fun _ => True) (work wf req) := by
  cases req with
  | fetch q => exact absurd rfl (hf q)
  | offsetCommit q => exact (commit_work q).map _ fun _ _ => trivial
  | offsetFetch q => exact (offsetFetch_work q).map _ fun _ _ => trivial
  | listOffsets q => exact (listOffsets_work q).map _ fun _ _ => trivial
  | syncGroup g gen m as =>
    show Prog.Cost _ _ _ _ (if _ then _ else _)
    split
    · trivial
    · exact assigned_work.map _ fun _ _ => trivial
  | apiVersions => exact ⟨Nat.le_refl 1, fun _ _ => trivial⟩
  | _ => trivial

theorem weigh_sum (l : List REv) (S : Nat) : cost (weigh (S + 1)) l = l.length + S * sleeps l := by
  rw [sleeps_eq]
  induction l with
  | nil => rfl
  | cons x l ih =>
    obtain ⟨a, r⟩ := x
    rw [cost_cons, cost_cons, ih, List.length_cons]
    cases a <;> simp only [weigh, sleepCost, Nat.mul_add, Nat.mul_one, Nat.mul_zero] <;> omega

/-- A run of the part of the dispatcher that computes the answer. -/
theorem answer_bound {sv : Server} {req : Request} (hf : ∀ q, req ≠ .fetch q) {w w' : World} {tr : List Ev} {p : Prog (Option Bytes)} (h : Exec w (answer sv req) tr w' p) :
    (own tr).length ≤ work w' req ∧ sleeps (own tr) = 0 := by
  have hc : ∀ S, (own tr).length + S * sleeps (own tr) ≤ work w' req := fun S => by
    rw [← weigh_sum]
    exact (h.cost (steps_within h.steps) (answer_work (S := S + 1) sv req hf)).1
  refine ⟨by have := hc 0; omega, ?_⟩
  have := hc (work w' req + 1)
  generalize sleeps (own tr) = n at this ⊢
  cases n with
  | zero => rfl
  | succ n => rw [Nat.mul_add] at this; omega

theorem work_mono {w w' : World} {tr : List Ev} (h : Steps w tr w') (req : Request) : work w req ≤ work w' req := by
  have hl : ∀ t p, (w.log t p).length ≤ (w'.log t p).length := fun t p => by rw [h.log, List.length_append]; omega
  have hs : ∀ {α : Type} (f g : α → Nat) (l : List α), (∀ x, f x ≤ g x) → (l.map f).sum ≤ (l.map g).sum := by
    intro α f g l hfg
    induction l with
    | nil => simp
    | cons x l ih => have := hfg x; simp only [List.map_cons, List.sum_cons]; omega
  have ht := steps_topics h
  cases req <;> simp only [work] <;> try omega
  case listOffsets q =>
    refine Nat.add_le_add_left (hs _ _ _ fun t => hs _ _ _ fun p => ?_) _
    have := hl t.name p.partitionIndex
    omega

/-- **C123**: answering a request other than Fetch takes a number of actions (on the data store, the clock and the connection) that is bounded by the request and by the data there are
when it is answered, whatever the other goroutines do meanwhile; and none of them is a sleep. -/
theorem C123_work {sv : Server} {clock : Int} {k : Nat} {req : Request} {c : I32} {t1 tr : List SEv} {s1 s2 : Sys} (h : Exchange sv clock k req c t1 s1 tr s2)
    (hf : ∀ q, req ≠ .fetch q) : (actsOf k tr).length ≤ work (s2.view 0) req + 3 ∧ sleeps (actsOf k tr) = 0 := by
  obtain ⟨ctx, es, h1, h2, _⟩ := h.run
  obtain ⟨client, n, a1, a2, a3⟩ := h1.run
  have hv : work (s2.view ctx) req = work (s2.view 0) req := by cases req <;> rfl
  rw [← h2, ← hv]
  rcases request_run h1.wellFormed a1 a2 h1.body a3 h1.sentAll h1.over with ⟨e, _⟩ | ⟨ta, tb, w1, rfl, hs, ⟨_, e, _⟩ | ⟨payload, b1, _, _, b2⟩⟩
  · cases e
  · cases e
  · obtain ⟨d1, d2⟩ := answer_bound hf b1
    have := work_mono hs req
    rw [own_append, b2]
    refine ⟨by rw [List.length_append]; simp only [List.length_cons, List.length_nil]; omega, ?_⟩
    rw [sleeps, List.countP_append]
    show sleeps (own ta) + _ = 0
    rw [d2]; rfl

/-- **C123**, Fetch: as long as all records from the requested offsets on fit the limits of the request (C36), the number of actions is bounded by the request and by the records there are when it
is answered; the maximum wait time adds a round for every 20 ms. -/
theorem C123_fetch {sv : Server} {clock : Int} {k : Nat} {q : FetchRequest} {c : I32} {t1 tr : List SEv} {s1 s2 : Sys} (h : Exchange sv clock k (.fetch q) c t1 s1 tr s2)
    (hsmall : ∀ src ∈ q.named, ∀ r ∈ (s2.view 0).log src.1 src.2.partition, wireSize r < 2 ^ 31)
    (hfit : ∀ src ∈ q.named, (((available (s2.view 0) src).map wireSize).sum : Nat) ≤ max 0 src.2.maxBytes.toInt) :
    (actsOf k tr).length ≤ q.topics.length + q.named.length + 4 +
      ((q.named.map fun src => (available (s2.view 0) src).length).sum + q.maxWaitMs.toInt.toNat / 20 + 2) * (q.named.length + 3) := by
  obtain ⟨ctx, es, h1, h2, _⟩ := h.run
  obtain ⟨client, n, a1, a2, a3⟩ := h1.run
  rw [← h2]
  rcases request_run h1.wellFormed a1 a2 h1.body a3 h1.sentAll h1.over with ⟨e, _⟩ | ⟨ta, tb, w1, rfl, hs, ⟨_, e, _⟩ | ⟨payload, b1, _, _, b2⟩⟩
  · cases e
  · cases e
  · obtain ⟨x, b3, _⟩ := exec_map_ret b1
    have hx : ∀ t p, (s2.view 0).log t p = w1.log t p ++ Spec.posts (effects tb) t p := fun t p => hs.log t p
    have hav : ∀ src, (available w1 src).length ≤ (available (s2.view 0) src).length ∧ ((available w1 src).map wireSize).sum ≤ ((available (s2.view 0) src).map wireSize).sum := by
      intro src
      unfold available
      rw [hx, List.drop_append]
      refine ⟨by rw [List.length_append]; omega, by rw [List.map_append, List.sum_append]; omega⟩
    have hb := C36_completes_partial b3 (fun src hsrc r hr => hsmall src hsrc r (by rw [hx]; exact List.mem_append_left _ hr)) (fun src hsrc => by
      have := hfit src hsrc
      have := (hav src).2
      omega)
    have hsum : (q.named.map fun src => (available w1 src).length).sum ≤ (q.named.map fun src => (available (s2.view 0) src).length).sum := by
      generalize q.named = l
      induction l with
      | nil => simp
      | cons y l ih => have := (hav y).1; simp only [List.map_cons, List.sum_cons]; omega
    have := Nat.mul_le_mul_right (q.named.length + 3) (Nat.add_le_add_right (Nat.add_le_add_right hsum (q.maxWaitMs.toInt.toNat / 20)) 2)
    rw [own_append, b2, List.length_append]
    simp only [List.length_cons, List.length_nil]
    omega

/-! ### Examples -/

/-- A ListOffsets that looks at every record: topic [116], partition 0, all timestamps. -/
def askScan : Request := .listOffsets ⟨-1, [⟨[116], [⟨0, 0⟩]⟩]⟩

theorem askScan_wf : askScan.WellFormed := by
  unfold askScan Request.WellFormed ShortList ShortStr
  decide

set_option maxRecDepth 1000000 in
/-- Example for `C123_work`: with one record in the partition, four actions and three writes; the bound is 8. -/
example : ∃ t1, Exchange ⟨9092, []⟩ 0 0 askScan 7 t1 (taken 0 askScan 7 oneRecord) (during 0 7 askScan 7 oneRecord) (answered 0 7 askScan 7 oneRecord) ∧
    (actsOf 0 (during 0 7 askScan 7 oneRecord)).length = 7 ∧ work ((answered 0 7 askScan 7 oneRecord).view 0) askScan + 3 = 8 := by
  obtain ⟨t0, h⟩ := oneRecord_run
  exact ⟨_, exchange_of_play h 0 7 askScan 7 askScan_wf (by decide +kernel), by decide +kernel, by decide +kernel⟩

def askOneCommit : Request := .offsetCommit ⟨[103], 0, [], 0, [⟨[116], [⟨0, 1, none⟩]⟩]⟩

theorem askOneCommit_wf : askOneCommit.WellFormed := by
  unfold askOneCommit Request.WellFormed ShortList ShortStr
  decide

set_option maxRecDepth 1000000 in
/-- Example for `C123_work` in which the bound is reached: an OffsetCommit for one partition takes three actions and three writes. -/
example : ∃ t1, Exchange ⟨9092, []⟩ 0 0 askOneCommit 7 t1 (taken 0 askOneCommit 7 oneRecord) (during 0 6 askOneCommit 7 oneRecord) (answered 0 6 askOneCommit 7 oneRecord) ∧
    (actsOf 0 (during 0 6 askOneCommit 7 oneRecord)).length = work ((answered 0 6 askOneCommit 7 oneRecord).view 0) askOneCommit + 3 := by
  obtain ⟨t0, h⟩ := oneRecord_run
  exact ⟨_, exchange_of_play h 0 6 askOneCommit 7 askOneCommit_wf (by decide +kernel), by decide +kernel⟩

set_option synthInstance.maxSize 1000 in
set_option maxRecDepth 1000000 in
/-- Example for `C123_fetch`: the record fits, and is fetched. -/
example : ∃ t1, Exchange ⟨9092, []⟩ 0 0 (.fetch ⟨-1, 100, 1, [⟨[116], [⟨0, 0, 1000⟩]⟩]⟩) 7 t1 (taken 0 askFetch 7 oneRecord) (during 0 10 askFetch 7 oneRecord) (answered 0 10 askFetch 7 oneRecord) ∧
    (∀ r ∈ ((answered 0 10 askFetch 7 oneRecord).view 0).log [116] 0, wireSize r < 2 ^ 31) ∧
    (((available ((answered 0 10 askFetch 7 oneRecord).view 0) ([116], ⟨0, 0, 1000⟩)).map wireSize).sum : Nat) ≤ max 0 (1000 : Int) := by
  obtain ⟨t0, h⟩ := oneRecord_run
  exact ⟨_, exchange_of_play h 0 10 askFetch 7 askFetch_wf (by decide +kernel), by decide +kernel, by decide +kernel⟩

end KM.Props
