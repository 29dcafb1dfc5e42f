import Verif.Sim
import Mathlib.Data.List.Forall2
/-
Properties C19-C22, C28, C38, C45 (data store and test API) under arbitrary interleaving.

`Exec w p tr w' p'` is a run of the program `p` from world `w`, interleaved with any actions of other goroutines; `tr` lists all
actions; `.ret v` as last argument means the program has finished. `others tr` are the actions of the environment.
`Spec.posts` and `Spec.committedFrom` (`Verif/Spec/History.lean`) give the contents as functions of a history of effects.
-/
namespace KM.Props
open KM

/-! ### C20 A record never changes or moves -/

/-- C20: whatever happens (any sequence of actions of any goroutines), the record at an offset stays there and the log only grows. -/
theorem C20_record_stable {w w' : World} {tr : List Ev} (h : Steps w tr w') (t : Bytes) (p : I32) :
    (∃ more, w'.log t p = w.log t p ++ more) ∧
    (∀ (i : Nat) (r : Record), (w.log t p)[i]? = some r → (w'.log t p)[i]? = some r) ∧
    (w.hasPartition t p → w'.hasPartition t p) := by
  refine ⟨⟨_, h.log t p⟩, ?_, h.hasPartition⟩
  intro i r hi
  rw [h.log t p]
  have hl : i < (w.log t p).length := by
    rcases Nat.lt_or_ge i (w.log t p).length with h | h
    · exact h
    · rw [List.getElem?_eq_none h] at hi; cases hi
  rw [List.getElem?_append_left hl]; exact hi

/-- Example: a record is posted to partition 0 of topic "t" while another is posted to partition 1 and the group "g" is reset. -/
def exSchedule : List Sched :=
  [.own, .own, .own, .own, .env (.createPartition [116] 1), .env (.post [116] 1 ⟨0, 7, none, some [1], []⟩),
   .env (.setOffset [116] 0 [103] 5), .env (.post [116] 0 ⟨0, 8, some [3], some [4], []⟩)]

def exRun := (simplePost [116] 0 (some [1]) (some [2])).run exSchedule (World.init 5000000)

example : Steps (World.init 5000000) exRun.1 exRun.2.1 ∧
    exRun.2.1.log [116] 0 = [⟨0, 5, some [1], some [2], []⟩, ⟨0, 8, some [3], some [4], []⟩] ∧
    exRun.2.1.log [116] 1 = [⟨0, 7, none, some [1], []⟩] :=
  ⟨(Prog.run_sound _ _ _).steps, by decide, by decide⟩

/-! ### Posting calls -/

/-- A call of SimplePost (`headers = none`; the timestamp is the time of the call) or ExtendedPost. -/
structure PostCall where
  topic : Bytes
  partition : Int
  key : Option Bytes
  value : Option Bytes
  extended : Option (List (Bytes × Option Bytes) × Int)

/-- The call, as the test makes it. -/
def PostCall.prog (c : PostCall) : Prog Unit :=
  match c.extended with
  | none => simplePost c.topic c.partition c.key c.value
  | some (hs, ts) => extendedPost c.topic c.partition c.key c.value hs ts

/-- A goroutine that makes these calls one after the other. -/
def postCalls : List PostCall → Prog Unit
  | [] => .ret ()
  | c :: cs => c.prog.bind fun _ => postCalls cs

/-- The call addresses this partition (numbers are taken modulo 2^32, see C45). -/
def PostCall.targets (c : PostCall) (t : Bytes) (p : I32) : Prop := c.topic = t ∧ BitVec.ofInt 32 c.partition = p

instance (c : PostCall) (t : Bytes) (p : I32) : Decidable (c.targets t p) := by unfold PostCall.targets; infer_instance

/-- The record carries what the call was given; SimplePost stamps it with the current time (in milliseconds), which lies between
`t0` and `t1` nanoseconds. -/
def PostCall.Matches (t0 t1 : Int) (c : PostCall) (r : Record) : Prop :=
  r.attributes = 0 ∧ r.key = c.key ∧ r.value = c.value ∧
  match c.extended with
  | none => r.headers = [] ∧ ∃ ns, t0 ≤ ns ∧ ns ≤ t1 ∧ r.timestamp = BitVec.ofInt 64 (ns / 1000000)
  | some (hs, ts) => r.headers.Perm hs ∧ r.timestamp = BitVec.ofInt 64 (ts / 1000000)

/-- The post actions of a run's own program. -/
def ownPosts (tr : List Ev) : List (Bytes × I32 × Record) := tr.filterMap fun e =>
  match e.mine, e.act with
  | true, .post t p r => some (t, p, r)
  | _, _ => none

theorem ownPosts_append (a b : List Ev) : ownPosts (a ++ b) = ownPosts a ++ ownPosts b := by simp [ownPosts]

theorem ownPosts_env {tr : List Ev} (h : ∀ e ∈ tr, e.mine = false) : ownPosts tr = [] := by
  unfold ownPosts
  rw [List.filterMap_eq_nil_iff]
  intro e he
  have := h e he
  obtain ⟨m, a, r⟩ := e
  simp only at this; subst this; rfl

theorem PostCall.Matches.mono {t0 t1 t0' t1' : Int} {c : PostCall} {r : Record} (h : c.Matches t0 t1 r) (h0 : t0' ≤ t0) (h1 : t1 ≤ t1') :
    c.Matches t0' t1' r := by
  obtain ⟨ha, hk, hv, h⟩ := h
  refine ⟨ha, hk, hv, ?_⟩
  split at h
  · obtain ⟨hh, ns, h2, h3, h4⟩ := h
    exact ⟨hh, ns, Int.le_trans h0 h2, Int.le_trans h3 h1, h4⟩
  · exact h

theorem postCall_exec {c : PostCall} {w w' : World} {tr : List Ev} (h : Exec w c.prog tr w' (.ret ())) :
    ∃ r, ownPosts tr = [(c.topic, BitVec.ofInt 32 c.partition, r)] ∧ c.Matches w.clock w'.clock r := by
  unfold PostCall.prog at h
  split at h
  · next he =>
    obtain ⟨t1, w1, r1, w2, t2, h1, s1, h2, rfl⟩ := exec_act_ret h
    obtain ⟨t3, w3, r3, w4, t4, h3, s3, h4, rfl⟩ := exec_act_ret h2
    obtain ⟨t5, w5, r5, w6, t6, h5, s5, h6, rfl⟩ := exec_act_ret h4
    obtain ⟨t7, w7, r7, w8, t8, h7, s7, h8, rfl⟩ := exec_act_ret h6
    obtain ⟨_, h9⟩ := exec_ret_inv h8
    have c1 := Int.le_trans h1.1.clock (step_clock s1)
    have c2 := Int.le_trans h3.1.clock (step_clock s3)
    have c3 := h5.1.clock
    have c4 := step_clock s5
    have c5 := Int.le_trans h7.1.clock (step_clock s7)
    have c6 := h9.1.clock
    obtain ⟨rfl, hr⟩ := s5
    refine ⟨{ attributes := 0, timestamp := milli r5, key := c.key, value := c.value, headers := [] }, ?_, rfl, rfl, rfl, ?_⟩
    rotate_left
    · rw [he]
      have hr : (r5 : Int) = w6.clock := hr
      exact ⟨rfl, w6.clock, by omega, by omega, by rw [← hr]; rfl⟩
    · rw [ownPosts_append, ownPosts_env h1.2]
      show ownPosts (t3 ++ _) = _
      rw [ownPosts_append, ownPosts_env h3.2]
      show ownPosts (t5 ++ _) = _
      rw [ownPosts_append, ownPosts_env h5.2]
      show ownPosts (t7 ++ _) = _
      rw [ownPosts_append, ownPosts_env h7.2]
      show [(c.topic, int32 c.partition, _)] ++ ownPosts t8 = _
      rw [ownPosts_env h9.2]; rfl
  · next hs ts he =>
    obtain ⟨t1, w1, r1, w2, t2, h1, s1, h2, rfl⟩ := exec_act_ret h
    obtain ⟨t3, w3, r3, w4, t4, h3, s3, h4, rfl⟩ := exec_act_ret h2
    obtain ⟨t5, w5, r5, w6, t6, h5, s5, h6, rfl⟩ := exec_act_ret h4
    obtain ⟨t7, w7, r7, w8, t8, h7, s7, h8, rfl⟩ := exec_act_ret h6
    obtain ⟨_, h9⟩ := exec_ret_inv h8
    obtain ⟨rfl, hr⟩ := s5
    refine ⟨{ attributes := 0, timestamp := milli ts, key := c.key, value := c.value, headers := r5 }, ?_, rfl, rfl, rfl, ?_⟩
    rotate_left
    · rw [he]; exact ⟨hr, rfl⟩
    · rw [ownPosts_append, ownPosts_env h1.2]
      show ownPosts (t3 ++ _) = _
      rw [ownPosts_append, ownPosts_env h3.2]
      show ownPosts (t5 ++ _) = _
      rw [ownPosts_append, ownPosts_env h5.2]
      show ownPosts (t7 ++ _) = _
      rw [ownPosts_append, ownPosts_env h7.2]
      show [(c.topic, int32 c.partition, _)] ++ ownPosts t8 = _
      rw [ownPosts_env h9.2]; rfl

theorem postCalls_exec {cs : List PostCall} {w w' : World} {tr : List Ev} (h : Exec w (postCalls cs) tr w' (.ret ())) :
    List.Forall₂ (fun (c : PostCall) (e : Bytes × I32 × Record) => e.1 = c.topic ∧ e.2.1 = BitVec.ofInt 32 c.partition ∧ c.Matches w.clock w'.clock e.2.2)
      cs (ownPosts tr) := by
  induction cs generalizing w tr with
  | nil =>
    obtain ⟨_, h⟩ := exec_ret_inv h
    rw [ownPosts_env h.2]; exact .nil
  | cons c cs ih =>
    obtain ⟨t1, t2, w1, v, h1, h2, rfl⟩ := exec_bind_ret h
    obtain ⟨r, hr, hm⟩ := postCall_exec h1
    rw [ownPosts_append, hr]
    refine .cons ⟨rfl, rfl, hm.mono (Int.le_refl _) h2.steps.clock⟩ ?_
    refine List.Forall₂.imp ?_ (ih h2)
    rintro c e ⟨h3, h4, h5⟩
    exact ⟨h3, h4, h5.mono h1.steps.clock (Int.le_refl _)⟩

/-! ### C21 The log of a partition is the sequence of posts to it -/

/-- What a goroutine of the process does: a test goroutine making posts; a client connection; a test setting up topics; a test
resetting an offset. -/
inductive Job where
  | poster (calls : List PostCall)
  | connection (sv : Server)
  | createTopics (partition : Int) (topics : List Bytes)
  | resetOffset (topic : Bytes) (partition : Int) (group : Bytes) (offset : I64)

def Job.prog : Job → Prog Unit
  | .poster calls => postCalls calls
  | .connection sv => handle sv
  | .createTopics p ts => createPartitionTopics p ts
  | .resetOffset t p g o => setConsumerGroupOffset t p g o

theorem createPartitionTopics_only (p : Int) (ts : List Bytes) :
    (createPartitionTopics p ts).Only fun a => (∃ t ∈ ts, a = .createTopic t) ∨ ∃ t ∈ ts, a = .createPartition t (int32 p) := by
  induction ts with
  | nil => trivial
  | cons t ts ih =>
    refine ⟨.inl ⟨t, by simp, rfl⟩, fun _ => ⟨.inr ⟨t, by simp, rfl⟩, fun _ => ih.mono ?_⟩⟩
    rintro a (⟨t, h, rfl⟩ | ⟨t, h, rfl⟩)
    · exact .inl ⟨t, List.mem_cons_of_mem _ h, rfl⟩
    · exact .inr ⟨t, List.mem_cons_of_mem _ h, rfl⟩

theorem setOffset_only (t : Bytes) (p : Int) (g : Bytes) (o : I64) :
    (setConsumerGroupOffset t p g o).Only fun a => ReadOnly a ∨ a = .setOffset t (int32 p) g o := by
  refine ⟨.inl rfl, fun kt => ?_⟩
  dsimp only
  split
  · refine ⟨.inl rfl, fun kp => ?_⟩
    dsimp only
    split
    · exact ⟨.inr rfl, fun _ => trivial⟩
    · trivial
  · trivial

theorem _root_.KM.ReadOnly.noPost {a : Act} (h : ReadOnly a) : NoPost a := by rintro t p r rfl; cases h

theorem _root_.KM.ConnAct.noPost {a : Act} (h : ConnAct a) : NoPost a := by
  rintro t p r rfl
  rcases h with (h | ⟨_, _, _, h⟩) | ⟨_, _, _, _, h⟩ <;> cases h

theorem Job.noPost (j : Job) (h : ∀ cs, j ≠ .poster cs) : j.prog.Only NoPost := by
  cases j with
  | poster cs => exact absurd rfl (h cs)
  | connection sv => exact (handle_connAct sv).mono fun a h => ConnAct.noPost h
  | createTopics p ts =>
    refine (createPartitionTopics_only p ts).mono ?_
    rintro a (⟨_, _, rfl⟩ | ⟨_, _, rfl⟩) <;> rintro _ _ _ ⟨⟩
  | resetOffset t p g o =>
    refine (setOffset_only t p g o).mono ?_
    rintro a (h | rfl)
    · exact ReadOnly.noPost h
    · rintro _ _ _ ⟨⟩

theorem Pool.tid_none {w w' : World} {ps ps' : List (Prog Unit)} {tr : List TEv} (h : Pool w ps tr w' ps') :
    ∀ e ∈ tr, e.tid = none → e.act.effect = none := by
  induction h with
  | refl => simp
  | step i a k r hi h _ ih =>
    intro e he ht
    rcases List.mem_cons.1 he with rfl | he
    · cases ht
    · exact ih e he ht
  | unroll _ _ _ ih => exact ih
  | tick d h _ ih =>
    intro e he ht
    rcases List.mem_cons.1 he with rfl | he
    · rfl
    · exact ih e he ht
  | cancel h _ ih =>
    intro e he ht
    rcases List.mem_cons.1 he with rfl | he
    · rfl
    · exact ih e he ht

theorem Pool.tid_lt {w w' : World} {ps ps' : List (Prog Unit)} {tr : List TEv} (h : Pool w ps tr w' ps') :
    ∀ e ∈ tr, ∀ i, e.tid = some i → i < ps.length := by
  induction h with
  | refl => simp
  | @step w w1 w2 ps ps' tr j a k r hi h _ ih =>
    intro e he i hti
    rcases List.mem_cons.1 he with rfl | he
    · cases hti
      rcases Nat.lt_or_ge j ps.length with h | h
      · exact h
      · rw [List.getElem?_eq_none h] at hi; cases hi
    · simpa using ih e he i hti
  | unroll _ _ _ ih => intro e he i hti; simpa using ih e he i hti
  | tick d h _ ih =>
    intro e he i hti
    rcases List.mem_cons.1 he with rfl | he
    · cases hti
    · exact ih e he i hti
  | cancel h _ ih =>
    intro e he i hti
    rcases List.mem_cons.1 he with rfl | he
    · cases hti
    · exact ih e he i hti

/-- The posts to a partition in a run of a pool, each with the goroutine that made it. -/
def labelled (t : Bytes) (p : I32) (tr : List TEv) : List (Nat × Record) := tr.filterMap fun e =>
  match e.tid, e.act with
  | some i, .post t' p' r => if t' = t ∧ p' = p then some (i, r) else none
  | _, _ => none

theorem labelled_posts {w w' : World} {ps ps' : List (Prog Unit)} {tr : List TEv} (h : Pool w ps tr w' ps') (t : Bytes) (p : I32) :
    Spec.posts (effects (tr.map fun e => ⟨false, e.act, e.resp⟩)) t p = (labelled t p tr).map (·.2) := by
  have hn := Pool.tid_none h
  clear h
  induction tr with
  | nil => rfl
  | cons e tr ih =>
    have ih := ih fun e he => hn e (List.mem_cons_of_mem _ he)
    have he := hn e (by simp)
    rw [List.map_cons, effects_cons, Spec.posts_append, ih]
    obtain ⟨tid, a, r⟩ := e
    unfold labelled
    rw [List.filterMap_cons]
    cases tid with
    | none =>
      have := he rfl
      simp only at this
      simp [this, Spec.posts]
    | some i =>
      cases a <;> first | rfl | skip
      case post t' p' rec =>
        by_cases e : t' = t ∧ p' = p
        · simp [Act.effect, Spec.posts, e]
        · simp [Act.effect, Spec.posts, e]

theorem labelled_thread (t : Bytes) (p : I32) (tr : List TEv) (i : Nat) :
    ((labelled t p tr).filter (·.1 = i)).map (·.2) =
      ((ownPosts (viewOf i tr)).filter fun e => decide (e.1 = t ∧ e.2.1 = p)).map (·.2.2) := by
  induction tr with
  | nil => rfl
  | cons e tr ih =>
    obtain ⟨tid, a, r⟩ := e
    unfold labelled ownPosts viewOf at *
    rw [List.filterMap_cons, List.map_cons, List.filterMap_cons]
    cases a <;> first
      | (cases tid <;> dsimp only <;> (try split) <;> first | exact ih | (next h => cases h) | (next h _ => cases h; done) | (next h => simp at h; done))
      | skip
    case post t' p' rec =>
      cases tid with
      | none => simpa using ih
      | some j =>
        by_cases e : j = i
        · subst e
          by_cases e2 : t' = t ∧ p' = p
          · simp only [e2, and_self, if_true, decide_true]
            rw [List.filter_cons_of_pos (by simp), List.filter_cons_of_pos (by simp), List.map_cons, List.map_cons, ih]
          · simp only [e2, if_false, decide_true]
            rw [List.filter_cons_of_neg (by simpa using e2), ih]
        · have e' : ¬ (some j = some i) := fun h => e (Option.some.inj h)
          simp only [e', decide_false]
          by_cases e2 : t' = t ∧ p' = p
          · simp only [e2, and_self, if_true]
            rw [List.filter_cons_of_neg (by simpa using e), ih]
          · simp only [e2, if_false, ih]

theorem forall₂_filter {α β : Type} {R : α → β → Prop} {f : α → Bool} {g : β → Bool} {as : List α} {bs : List β}
    (h : List.Forall₂ R as bs) (hfg : ∀ a b, R a b → f a = g b) : List.Forall₂ R (as.filter f) (bs.filter g) := by
  induction h with
  | nil => exact .nil
  | @cons a b _ _ h _ ih =>
    have e := hfg _ _ h
    by_cases hf : f a = true
    · rw [List.filter_cons_of_pos hf, List.filter_cons_of_pos (e ▸ hf)]; exact .cons h ih
    · rw [List.filter_cons_of_neg hf, List.filter_cons_of_neg (e ▸ hf)]; exact ih

theorem forall₂_map_right {α β γ : Type} {R : α → γ → Prop} {f : β → γ} {as : List α} {bs : List β}
    (h : List.Forall₂ (fun a b => R a (f b)) as bs) : List.Forall₂ R as (bs.map f) := by
  induction h with
  | nil => exact .nil
  | cons h _ ih => exact .cons h ih

/-- C21: goroutines run concurrently, interleaved in any way, until all posting goroutines are done. Then the log of every
partition has grown by exactly the posts addressed to it: `lab` lists the new records in log order, each with the goroutine that
posted it; only posting goroutines contribute; and for each of them its contributions are, in order and one for one, its calls addressed
to the partition. -/
theorem C21_log_is_posts {w w' : World} {jobs : List Job} {tr : List TEv} {ps' : List (Prog Unit)}
    (h : Pool w (jobs.map Job.prog) tr w' ps')
    (done : ∀ (i : Nat) (cs : List PostCall), jobs[i]? = some (.poster cs) → ps'[i]? = some (.ret ()))
    (t : Bytes) (p : I32) :
    ∃ lab : List (Nat × Record),
      w'.log t p = w.log t p ++ lab.map (·.2) ∧
      (∀ x ∈ lab, ∃ cs, jobs[x.1]? = some (.poster cs)) ∧
      ∀ (i : Nat) (cs : List PostCall), jobs[i]? = some (.poster cs) →
        List.Forall₂ (PostCall.Matches w.clock w'.clock) (cs.filter (·.targets t p)) ((lab.filter (·.1 = i)).map (·.2)) := by
  refine ⟨labelled t p tr, ?_, ?_, ?_⟩
  · rw [h.steps.log t p, labelled_posts h]
  · rintro ⟨i, r⟩ hx
    obtain ⟨e, he, hm⟩ := List.mem_filterMap.1 hx
    obtain ⟨tid, a, rr⟩ := e
    have htid : ∃ t' p' r', tid = some i ∧ a = .post t' p' r' := by
      cases tid with
      | none => cases hm
      | some j =>
        cases a <;> first | (cases hm; done) | skip
        case post t' p' rec =>
          dsimp only at hm
          split at hm
          · cases hm; exact ⟨_, _, _, rfl, rfl⟩
          · cases hm
    obtain ⟨t', p', r', rfl, rfl⟩ := htid
    cases hj : jobs[i]? with
    | none =>
      exfalso
      have hl := Pool.tid_lt h _ he i rfl
      rw [List.length_map] at hl
      rw [List.getElem?_eq_none_iff] at hj
      omega
    | some j =>
      by_cases hp : ∃ cs, j = .poster cs
      · obtain ⟨cs, rfl⟩ := hp; exact ⟨cs, rfl⟩
      · exfalso
        obtain ⟨p1, _, hx⟩ := Pool.project h i j.prog (by rw [List.getElem?_map, hj]; rfl)
        have := (hx.only (j.noPost fun cs e => hp ⟨cs, e⟩)).2 ⟨true, .post t' p' r', rr⟩
          (List.mem_map.2 ⟨⟨some i, .post t' p' r', rr⟩, he, by simp⟩) rfl
        exact this _ _ _ rfl
  · intro i cs hi
    obtain ⟨p1, hp1, hx⟩ := Pool.project h i (postCalls cs) (by rw [List.getElem?_map, hi]; rfl)
    rw [done i cs hi] at hp1
    cases hp1
    rw [labelled_thread]
    refine forall₂_map_right (List.Forall₂.imp (fun _ _ h => h.2.2) (forall₂_filter (postCalls_exec hx) ?_))
    rintro c e ⟨h1, h2, _⟩
    unfold PostCall.targets
    rw [h1, h2]

/-- Example: two posting goroutines and a setup goroutine, interleaved; the log has both posts to (t, 0), in the order they took effect. -/
def exJobs : List Job :=
  [.poster [⟨[116], 0, some [1], some [2], none⟩, ⟨[116], 1, none, some [9], some ([([5], none)], 3000000)⟩], .createTopics 0 [[116]],
   .poster [⟨[116], 0, none, none, some ([], 4000000)⟩]]

def exPool := poolRun [0, 2, 1, 2, 0, 2, 0, 2, 1, 0, 0, 0, 0, 0] (World.init 5000000) (exJobs.map Job.prog)

example : Pool (World.init 5000000) (exJobs.map Job.prog) exPool.1 exPool.2.1 exPool.2.2 := poolRun_sound _ _ _
example : exPool.2.1.log [116] 0 = [⟨0, 4, none, none, []⟩, ⟨0, 5, some [1], some [2], []⟩] ∧
    exPool.2.1.log [116] 1 = [⟨0, 3, none, some [9], [([5], none)]⟩] := by decide
example : ∀ (i : Nat) (cs : List PostCall), exJobs[i]? = some (.poster cs) → exPool.2.2[i]? = some (.ret ()) := by
  intro i cs h
  match i with
  | 0 => rfl
  | 1 => cases h
  | 2 => rfl
  | n + 3 => cases h

/-! ### C22 Isolation -/

theorem postCall_only (c : PostCall) : c.prog.Only fun a => a.effect = none ∨ ∃ r, a = .post c.topic (int32 c.partition) r := by
  unfold PostCall.prog
  split
  · exact ⟨.inl rfl, fun _ => ⟨.inl rfl, fun _ => ⟨.inl rfl, fun _ => ⟨.inr ⟨_, rfl⟩, fun _ => trivial⟩⟩⟩⟩
  · exact ⟨.inl rfl, fun _ => ⟨.inl rfl, fun _ => ⟨.inl rfl, fun _ => ⟨.inr ⟨_, rfl⟩, fun _ => trivial⟩⟩⟩⟩

/-- C22 for posts: at every moment of a post to (topic, partition), all other partitions' logs and all committed offsets are what the
other goroutines' actions make them. -/
theorem C22_post_isolated {c : PostCall} {w w' : World} {tr : List Ev} {p' : Prog Unit} (h : Exec w c.prog tr w' p') (t : Bytes) (p : I32) :
    (¬ c.targets t p → w'.log t p = w.log t p ++ Spec.posts (effects (others tr)) t p) ∧
    ∀ g, (w'.committed t p g).toInt = Spec.committedFrom (w.committed t p g).toInt (effects (others tr)) t p g := by
  have ho := (h.only (postCall_only c)).2
  constructor
  · intro hn
    rw [h.steps.log t p, posts_others]
    intro e he hm r e2
    rcases ho e he hm with h | ⟨r', h⟩
    · rw [e2] at h; cases h
    · rw [e2] at h; cases h
      exact hn ⟨rfl, rfl⟩
  · intro g
    rw [h.steps.committed t p g, committed_others]
    intro e he hm
    rcases ho e he hm with h | ⟨r', h⟩
    · exact ⟨fun o e2 => (by rw [e2] at h; cases h), fun o e2 => (by rw [e2] at h; cases h)⟩
    · exact ⟨fun o e2 => (by rw [e2] at h; cases h), fun o e2 => (by rw [e2] at h; cases h)⟩

/-- The request names this topic and partition. -/
def CommitRequest.names (q : CommitRequest) (t : Bytes) (p : I32) : Prop := ∃ x ∈ q.topics, x.name = t ∧ ∃ y ∈ x.partitions, y.partitionIndex = p

theorem forEach_only_mem {α β : Type} {S : Act → Prop} {f : α → Prog β} (xs : List α) (hf : ∀ x ∈ xs, (f x).Only S) : (Prog.forEach f xs).Only S := by
  induction xs with
  | nil => trivial
  | cons x xs ih => exact (hf x (by simp)).bind fun _ => (ih fun y hy => hf y (List.mem_cons_of_mem _ hy)).bind fun _ => trivial

theorem offsetCommit_only_named (q : CommitRequest) :
    (offsetCommit q).Only fun a => ReadOnly a ∨ ∃ t p o, a = .commit t p q.groupId o ∧ CommitRequest.names q t p := by
  refine Prog.Only.map _ (forEach_only_mem _ fun t ht => ⟨.inl rfl, fun kt => Prog.Only.map _ (forEach_only_mem _ fun par hpar => ?_)⟩)
  unfold commitPartition
  split
  · refine ⟨.inl rfl, fun kp => ?_⟩
    dsimp only
    split
    · exact ⟨.inr ⟨_, _, _, rfl, t, ht, rfl, par, hpar, rfl⟩, fun _ => trivial⟩
    · trivial
  · trivial

/-- C22 for commits: an OffsetCommit changes no log, and no committed offset of another group or of a partition it does not name. -/
theorem C22_commit_isolated {q : CommitRequest} {w w' : World} {tr : List Ev} {p' : Prog CommitResponse} (h : Exec w (offsetCommit q) tr w' p')
    (t : Bytes) (p : I32) :
    w'.log t p = w.log t p ++ Spec.posts (effects (others tr)) t p ∧
    ∀ g, (g ≠ q.groupId ∨ ¬ CommitRequest.names q t p) →
      (w'.committed t p g).toInt = Spec.committedFrom (w.committed t p g).toInt (effects (others tr)) t p g := by
  have ho := (h.only (offsetCommit_only_named q)).2
  constructor
  · rw [h.steps.log t p, posts_others]
    intro e he hm r e2
    rcases ho e he hm with h | ⟨_, _, _, h, _⟩
    · exact ReadOnly.noPost h _ _ _ e2
    · rw [e2] at h; cases h
  · intro g hg
    rw [h.steps.committed t p g, committed_others]
    intro e he hm
    rcases ho e he hm with h | ⟨t', p', o', h, hn⟩
    · exact ⟨fun o e2 => (by rw [e2] at h; cases h), fun o e2 => (by rw [e2] at h; cases h)⟩
    · refine ⟨fun o e2 => ?_, fun o e2 => (by rw [e2] at h; cases h)⟩
      rw [e2] at h; cases h
      rcases hg with hg | hg
      · exact hg rfl
      · exact hg hn

/-- C22 for resets: SetConsumerGroupOffset changes no log and no other committed offset. -/
theorem C22_reset_isolated {topic : Bytes} {n : Int} {group : Bytes} {o : I64} {w w' : World} {tr : List Ev} {p' : Prog Unit}
    (h : Exec w (setConsumerGroupOffset topic n group o) tr w' p') (t : Bytes) (p : I32) :
    w'.log t p = w.log t p ++ Spec.posts (effects (others tr)) t p ∧
    ∀ g, ¬ (t = topic ∧ p = BitVec.ofInt 32 n ∧ g = group) →
      (w'.committed t p g).toInt = Spec.committedFrom (w.committed t p g).toInt (effects (others tr)) t p g := by
  have ho := (h.only (setOffset_only topic n group o)).2
  constructor
  · rw [h.steps.log t p, posts_others]
    intro e he hm r e2
    rcases ho e he hm with h | h
    · exact ReadOnly.noPost h _ _ _ e2
    · rw [e2] at h; cases h
  · intro g hg
    rw [h.steps.committed t p g, committed_others]
    intro e he hm
    rcases ho e he hm with h | h
    · exact ⟨fun o e2 => (by rw [e2] at h; cases h), fun o e2 => (by rw [e2] at h; cases h)⟩
    · refine ⟨fun o e2 => (by rw [e2] at h; cases h), fun o e2 => ?_⟩
      rw [e2] at h; cases h
      exact hg ⟨rfl, rfl, rfl⟩

/-- Examples: a post to another partition, a commit of another group and a reset, with the observed partition filled by others. -/
def exWorld : World := exRun.2.1

example : ∃ tr w', Exec exWorld (PostCall.prog ⟨[116], 1, none, some [1], none⟩) tr w' (.ret ()) ∧
    w'.log [116] 1 = [⟨0, 7, none, some [1], []⟩, ⟨0, 5, none, some [1], []⟩] ∧ w'.log [116] 0 = exWorld.log [116] 0 ∧
    w'.committed [116] 0 [103] = 5 :=
  ⟨_, _, Prog.run_ret (sch := go 4) rfl, by decide, by decide, by decide⟩

example : ∃ tr w' v, Exec exWorld (offsetCommit ⟨[103], 0, [], 0, [⟨[116], [⟨0, 9, none⟩]⟩]⟩) tr w' (.ret v) ∧
    w'.committed [116] 0 [103] = 9 ∧ w'.committed [116] 0 [104] = 0 :=
  ⟨_, _, _, Prog.run_ret (sch := go 3) rfl, by decide, by decide⟩

example : ∃ tr w', Exec exWorld (setConsumerGroupOffset [116] 0 [103] 1) tr w' (.ret ()) ∧
    w'.committed [116] 0 [103] = 1 ∧ exWorld.committed [116] 0 [103] = 5 :=
  ⟨_, _, Prog.run_ret (sch := go 3) rfl, by decide, by decide⟩

/-! ### C19 Creating topics and partitions -/

theorem step_hasPartition_inv {a : Act} {w w' : World} {r : a.Resp} (h : a.step w r w') {t : Bytes} {p : I32} (hp : w'.hasPartition t p) :
    w.hasPartition t p ∨ a = .createPartition t p := by
  unfold World.hasPartition at *
  rcases step_part h t p with e | ⟨_, _, e⟩ | ⟨kp, e, _⟩
  · rw [e] at hp; exact .inl hp
  · exact .inr e
  · rw [e]; exact .inl rfl

theorem Steps.hasPartition_inv {w w' : World} {tr : List Ev} (h : Steps w tr w') {t : Bytes} {p : I32} (hp : w'.hasPartition t p) :
    w.hasPartition t p ∨ ∃ e ∈ tr, e.act = .createPartition t p := by
  induction h with
  | nil => exact .inl hp
  | cons e hst _ ih =>
    rcases ih hp with h | ⟨x, hx, h⟩
    · rcases step_hasPartition_inv hst h with h | h
      · exact .inl h
      · exact .inr ⟨e, by simp, h⟩
    · exact .inr ⟨x, List.mem_cons_of_mem _ hx, h⟩

theorem createPartitionTopics_creates {n : Int} {topics : List Bytes} {w w' : World} {tr : List Ev}
    (h : Exec w (createPartitionTopics n topics) tr w' (.ret ())) : ∀ t ∈ topics, w'.hasPartition t (int32 n) := by
  induction topics generalizing w tr with
  | nil => simp
  | cons x xs ih =>
    obtain ⟨t1, w1, r1, w2, t2, h1, s1, h2, rfl⟩ := exec_act_ret h
    obtain ⟨t3, w3, r3, w4, t4, h3, s3, h4, rfl⟩ := exec_act_ret h2
    intro t ht
    rcases List.mem_cons.1 ht with rfl | ht
    · refine h4.steps.hasPartition ?_
      obtain ⟨s4, rfl⟩ := s3
      unfold World.hasPartition
      show ((Store.createPartition w3.ds t (int32 n)).part? t (int32 n)).isSome
      rw [Store.part?_createPartition _ _ _ _ _ s4, if_pos ⟨rfl, rfl⟩]; rfl
    · exact ih h4 t ht

/-- C19: CreatePartitionTopics, interleaved with anything: every existing topic and partition stays; all records and committed
offsets are what they were plus what other goroutines did; when it returns all requested partitions exist; and no partition appears that
neither it nor another goroutine was asked to create. -/
theorem C19_create_keeps_everything {n : Int} {topics : List Bytes} {w w' : World} {tr : List Ev} {p' : Prog Unit}
    (h : Exec w (createPartitionTopics n topics) tr w' p') :
    (∀ t, w.hasTopic t → w'.hasTopic t) ∧
    (∀ t p, w.hasPartition t p → w'.hasPartition t p) ∧
    (∀ t p, w'.log t p = w.log t p ++ Spec.posts (effects (others tr)) t p) ∧
    (∀ t p g, (w'.committed t p g).toInt = Spec.committedFrom (w.committed t p g).toInt (effects (others tr)) t p g) ∧
    (p' = .ret () → ∀ t ∈ topics, w'.hasPartition t (BitVec.ofInt 32 n)) ∧
    (∀ t p, w'.hasPartition t p → w.hasPartition t p ∨ (t ∈ topics ∧ p = BitVec.ofInt 32 n) ∨
      ∃ e ∈ others tr, e.act = .createPartition t p) := by
  have ho := (h.only (createPartitionTopics_only n topics)).2
  refine ⟨fun _ => h.steps.hasTopic, fun _ _ => h.steps.hasPartition, ?_, ?_, ?_, ?_⟩
  · intro t p
    rw [h.steps.log t p, posts_others]
    intro e he hm r e2
    rcases ho e he hm with ⟨_, _, h⟩ | ⟨_, _, h⟩ <;> rw [e2] at h <;> cases h
  · intro t p g
    rw [h.steps.committed t p g, committed_others]
    intro e he hm
    rcases ho e he hm with ⟨_, _, h⟩ | ⟨_, _, h⟩
    · exact ⟨fun o e2 => (by rw [e2] at h; cases h), fun o e2 => (by rw [e2] at h; cases h)⟩
    · exact ⟨fun o e2 => (by rw [e2] at h; cases h), fun o e2 => (by rw [e2] at h; cases h)⟩
  · rintro rfl
    exact createPartitionTopics_creates h
  · intro t p hp
    rcases Steps.hasPartition_inv h.steps hp with h | ⟨e, he, h⟩
    · exact .inl h
    · right
      by_cases hm : e.mine = true
      · rcases ho e he hm with ⟨_, _, h2⟩ | ⟨t', ht, h2⟩
        · rw [h] at h2; cases h2
        · rw [h] at h2; cases h2
          exact .inl ⟨ht, rfl⟩
      · exact .inr ⟨e, List.mem_filter.2 ⟨he, by simpa using hm⟩, h⟩

/-- C19: when everything requested exists already, each step of CreatePartitionTopics leaves the store exactly as it is. -/
theorem C19_create_idempotent {n : Int} {topics : List Bytes} {w w' : World} {tr : List Ev} {p' : Prog Unit}
    (h : Exec w (createPartitionTopics n topics) tr w' p') (hw : ∀ t ∈ topics, w.hasPartition t (BitVec.ofInt 32 n)) :
    ∀ (t1 t2 : List Ev) (e : Ev), tr = t1 ++ e :: t2 → e.mine = true → ∀ wa wb, Steps w t1 wa → e.act.step wa e.resp wb → wb.ds = wa.ds := by
  have ho := (h.only (createPartitionTopics_only n topics)).2
  intro t1 t2 e htr hm wa wb hs hst
  have hx := ho e (by rw [htr]; simp) hm
  obtain ⟨m, a, r⟩ := e
  simp only at hx hst
  rcases hx with ⟨t, ht, rfl⟩ | ⟨t, ht, rfl⟩
  · have hp := (hs.hasPartition (hw t ht)).hasTopic
    cases hst
    unfold World.hasTopic at hp
    show wa.ds.createTopic t = wa.ds
    obtain ⟨kt, hk⟩ := Option.isSome_iff_exists.1 hp
    simp [Store.createTopic, hk]
  · have hp := hs.hasPartition (hw t ht)
    obtain ⟨_, rfl⟩ := hst
    unfold World.hasPartition Store.part? at hp
    show wa.ds.createPartition t (int32 n) = wa.ds
    cases hg : GoMap.get wa.ds t with
    | none => simp [Store.createPartition, hg]
    | some kt =>
      rw [hg] at hp
      simp only [Option.bind_some] at hp
      obtain ⟨kp, hk⟩ := Option.isSome_iff_exists.1 hp
      have hk : GoMap.get kt (int32 n) = some kp := hk
      simp [Store.createPartition, hg, hk]

/-- C19 for posts: at every moment of a post, all topics, partitions, records and committed offsets from before are still there. -/
theorem C19_post_keeps_everything {c : PostCall} {w w' : World} {tr : List Ev} {p' : Prog Unit} (h : Exec w c.prog tr w' p') :
    (∀ t, w.hasTopic t → w'.hasTopic t) ∧
    (∀ t p, w.hasPartition t p → w'.hasPartition t p) ∧
    (∀ t p, ∃ more, w'.log t p = w.log t p ++ more) ∧
    (∀ t p g, (w'.committed t p g).toInt = Spec.committedFrom (w.committed t p g).toInt (effects (others tr)) t p g) :=
  ⟨fun _ => h.steps.hasTopic, fun _ _ => h.steps.hasPartition, fun t p => ⟨_, h.steps.log t p⟩, fun t p g => (C22_post_isolated h t p).2 g⟩

/-- Example: creating partition 0 of an existing and of a new topic. -/
example : ∃ tr w', Exec exWorld (createPartitionTopics 0 [[116], [117]]) tr w' (.ret ()) ∧
    w'.log [116] 0 = exWorld.log [116] 0 ∧ w'.committed [116] 0 [103] = 5 ∧ w'.hasPartition [117] 0 ∧ ¬ exWorld.hasTopic [117] := by
  refine ⟨_, _, Prog.run_ret (sch := go 4) rfl, by decide, by decide, ?_, ?_⟩
  · unfold World.hasPartition; decide
  · unfold World.hasTopic; decide

example : ∀ t ∈ [[116]], exWorld.hasPartition t (BitVec.ofInt 32 0) := by
  intro t ht; rw [List.mem_singleton.1 ht]; unfold World.hasPartition; decide

/-! ### C28 SetConsumerGroupOffset is exact -/

/-- C28: on an existing partition, there is a moment of the call (after the events `t1`) at which the committed offset becomes exactly
the given value, so that at the end it is that value modified only by what others did since; if nobody else touches it, it is the given value. -/
theorem C28_reset_exact {topic : Bytes} {n : Int} {group : Bytes} {o : I64} {w w' : World} {tr : List Ev}
    (h : Exec w (setConsumerGroupOffset topic n group o) tr w' (.ret ())) (hp : w.hasPartition topic (BitVec.ofInt 32 n)) :
    (∃ t1 t2, tr = t1 ++ t2 ∧ (∀ e ∈ t2, e.mine = false) ∧
      (w'.committed topic (BitVec.ofInt 32 n) group).toInt = Spec.committedFrom o.toInt (effects t2) topic (BitVec.ofInt 32 n) group) ∧
    ((∀ e ∈ others tr, e.act.effect = none) → w'.committed topic (BitVec.ofInt 32 n) group = o) := by
  have key : ∃ t1 t2, tr = t1 ++ t2 ∧ (∀ e ∈ t2, e.mine = false) ∧
      (w'.committed topic (BitVec.ofInt 32 n) group).toInt = Spec.committedFrom o.toInt (effects t2) topic (BitVec.ofInt 32 n) group := by
    unfold setConsumerGroupOffset at h
    obtain ⟨t1, w1, r1, w2, t2, h1, s1, h2, rfl⟩ := exec_act_ret h
    obtain ⟨rfl, rfl⟩ := s1
    have hp1 := h1.1.hasPartition hp
    have ht : w2.ds.getTopic topic = true := hp1.hasTopic
    rw [if_pos ht] at h2
    obtain ⟨t3, w3, r3, w4, t4, h3, s3, h4, rfl⟩ := exec_act_ret h2
    obtain ⟨_, rfl, rfl⟩ := s3
    have hp3 : w4.ds.getPartition topic (int32 n) = true := h3.1.hasPartition hp1
    rw [if_pos hp3] at h4
    obtain ⟨t5, w5, r5, w6, t6, h5, s5, h6, rfl⟩ := exec_act_ret h4
    obtain ⟨_, h7⟩ := exec_ret_inv h6
    refine ⟨t1 ++ ⟨true, .getTopic topic, w2.ds.getTopic topic⟩ :: (t3 ++ ⟨true, .getPartition topic (int32 n), w4.ds.getPartition topic (int32 n)⟩ :: (t5 ++ [⟨true, .setOffset topic (int32 n) group o, r5⟩])),
      t6, by simp, h7.2, ?_⟩
    rw [h7.1.committed, step_committed s5]
    simp [Act.effect, Spec.committedFrom, int32]
  refine ⟨key, ?_⟩
  intro hq
  obtain ⟨t1, t2, rfl, he, hc⟩ := key
  have : effects t2 = [] := by
    unfold effects
    rw [List.filterMap_eq_nil_iff]
    intro e hx
    exact hq e (List.mem_filter.2 ⟨List.mem_append_right _ hx, by simp [he e hx]⟩)
  rw [this] at hc
  exact BitVec.eq_of_toInt_eq hc

/-- C28: when the topic or partition does not exist (even at the end of the call), no step of the call changes anything. -/
theorem C28_reset_unknown {topic : Bytes} {n : Int} {group : Bytes} {o : I64} {w w' : World} {tr : List Ev} {p' : Prog Unit}
    (h : Exec w (setConsumerGroupOffset topic n group o) tr w' p') (hp : ¬ w'.hasPartition topic (BitVec.ofInt 32 n)) :
    ∀ (t1 t2 : List Ev) (e : Ev), tr = t1 ++ e :: t2 → e.mine = true → ∀ wa wb, Steps w t1 wa → e.act.step wa e.resp wb → wb.ds = wa.ds := by
  intro t1 t2 e htr hm wa wb hs hst
  rcases (h.only (setOffset_only topic n group o)).2 e (by rw [htr]; simp) hm with hr | hr
  · exact step_same hst hr
  · exfalso
    have hs := htr ▸ h.steps
    obtain ⟨w1, h1, h2⟩ := hs.split
    cases h2 with
    | cons _ hst2 h3 =>
      obtain ⟨m, a, r⟩ := e
      simp only at hr
      subst hr
      exact hp ((Steps.cons (es := t2) ⟨m, _, r⟩ hst2 h3).hasPartition hst2.1)

/-- Examples: a reset below the current offset while another group commits; and a reset of an unknown partition. -/
example : ∃ tr w', Exec exWorld (setConsumerGroupOffset [116] 0 [103] (-2)) tr w' (.ret ()) ∧ exWorld.hasPartition [116] (BitVec.ofInt 32 0) ∧
    w'.committed [116] 0 [103] = -2 ∧ w'.committed [116] 0 [104] = 3 := by
  refine ⟨_, _, Prog.run_ret (sch := [.own, .env (.commit [116] 0 [104] 3), .own, .own]) rfl, ?_, by decide, by decide⟩
  unfold World.hasPartition; decide

example : ∃ tr w', Exec exWorld (setConsumerGroupOffset [116] 7 [103] 3) tr w' (.ret ()) ∧ ¬ w'.hasPartition [116] (BitVec.ofInt 32 7) := by
  refine ⟨_, _, Prog.run_ret (sch := go 2) rfl, ?_⟩
  unfold World.hasPartition; decide

/-! ### C38 Read-only calls -/

/-- C38: no step of the handling of any request other than OffsetCommit and OffsetFetch changes the store, whatever the request's
bytes and whatever other goroutines do meanwhile. (OffsetFetch: see C26.) -/
theorem C38_read_only (sv : Server) (api : Api) (h1 : api ≠ .offsetFetch) (h2 : api ≠ .offsetCommit) (r : Reader)
    {w w' : World} {tr : List Ev} {p' : Prog HRes} (h : Exec w (api.handler sv r) tr w' p') :
    ∀ (t1 t2 : List Ev) (e : Ev), tr = t1 ++ e :: t2 → e.mine = true → ∀ wa wb, Steps w t1 wa → e.act.step wa e.resp wb → wb.ds = wa.ds := by
  intro t1 t2 e htr hm wa wb _ hst
  exact step_same hst ((h.only (handler_readOnly sv api h1 h2 r)).2 e (by rw [htr]; simp) hm)

/-- Example: a heartbeat request while others post. -/
example (sv : Server) (r : Reader) : ∃ tr w', Exec exWorld (Api.heartbeat.handler sv r) tr w' (Api.heartbeat.handler sv r) ∧
    (w'.log [116] 1).length = 2 :=
  ⟨_, _, .env (.post [116] 1 ⟨0, 0, none, none, []⟩) () (Act.exec1_sound (a := .post [116] 1 ⟨0, 0, none, none, []⟩) rfl) (.refl _ _), by decide⟩

/-! ### C45 Partition numbers -/

/-- C45, for partition numbers in the range of an int32: posts to two different partitions of a topic never mix. (The full
statement, for all `int` partition numbers, is false: `C45_numbers_collide`.) -/
theorem C45_partitions_apart_partial {c : PostCall} {w w' : World} {tr : List Ev} {p' : Prog Unit} (h : Exec w c.prog tr w' p')
    (hc : -2 ^ 31 ≤ c.partition ∧ c.partition < 2 ^ 31) (n : Int) (hn : -2 ^ 31 ≤ n ∧ n < 2 ^ 31) (hne : n ≠ c.partition) :
    w'.log c.topic (BitVec.ofInt 32 n) = w.log c.topic (BitVec.ofInt 32 n) ++ Spec.posts (effects (others tr)) c.topic (BitVec.ofInt 32 n) := by
  refine (C22_post_isolated h c.topic _).1 ?_
  rintro ⟨_, e⟩
  have := congrArg BitVec.toInt e
  rw [BitVec.toInt_ofInt, BitVec.toInt_ofInt, Int.bmod_eq_of_le (by omega) (by omega), Int.bmod_eq_of_le (by omega) (by omega)] at this
  exact hne this.symm

/-- Example: posts to partitions 0 and 1. -/
example : ∃ tr w', Exec exWorld (PostCall.prog ⟨[116], 0, none, some [1], none⟩) tr w' (.ret ()) ∧
    w'.log [116] (BitVec.ofInt 32 1) = [⟨0, 7, none, some [1], []⟩] ∧ (w'.log [116] (BitVec.ofInt 32 0)).length = 3 :=
  ⟨_, _, Prog.run_ret (sch := go 4) rfl, by decide, by decide⟩

/-- C45 is false for partition numbers outside the range of an int32: from a fresh mock, a record posted to partition 0 and one
posted to partition 4294967296 of the same topic end up in the same log. -/
theorem C45_numbers_collide : ∃ tr w',
    Exec (World.init 0) (postCalls [⟨[116], 0, none, some [1], none⟩, ⟨[116], 4294967296, none, some [2], none⟩]) tr w' (.ret ()) ∧
    (w'.log [116] 0).map (·.value) = [some [1], some [2]] :=
  ⟨_, _, Prog.run_ret (sch := go 8) rfl, by decide⟩

end KM.Props
