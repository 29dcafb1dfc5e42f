import Verif.Props.Drop
import Verif.Props.Lifecycle
import Verif.LifeNext
import Verif.System
import Verif.Props.Finish
/-
C75: what brings the mock down.
-/
namespace KM.Props
open KM Spec

/-! ### Calls do not panic -/

theorem entry_noPanic {c : Call} {p : Prog Unit} (h : c.entry = .call p) : p.NoPanic := by
  cases c <;> simp only [Call.entry, reduceCtorEq, ApiPc.call.injEq] at h <;> subst h
  · exact fun _ _ _ _ => trivial
  · exact fun _ _ _ _ => trivial
  · next ts =>
    induction ts with
    | nil => trivial
    | cons t ts ih => exact fun _ _ => ih
  · intro kt
    dsimp only
    split
    · intro kp
      dsimp only
      split
      · exact fun _ => trivial
      · trivial
    · trivial

theorem run_calls {s s' : Sys} {tr : List SEv} (h : Sys.Run s tr s') (h0 : ∀ i p, s.api i = .call p → p.NoPanic) (i : Nat) (p : Prog Unit) (hp : s'.api i = .call p) :
    p.NoPanic := by
  induction h generalizing i p with
  | nil => exact h0 i p hp
  | @cons s s1 s2 e es h _ ih =>
    refine ih (fun i p hp => ?_) i p hp
    rcases step_api h i with ⟨_, h1⟩ | ⟨_, h1⟩
    · generalize hq : s.api i = pc at h1
      rw [hp] at h1
      generalize hp' : ApiPc.call p = pc' at h1
      cases h1 <;> first | (cases hp'; done) | skip
      · exact entry_noPanic hp'.symm
      · next b _ => cases b <;> cases hp'
      · next b _ => cases b <;> cases hp'
      · next b _ => cases b <;> cases hp'
      · cases hp'; exact h0 i _ hq _
    · generalize hq : s.api i = pc at h1
      rw [hp] at h1
      generalize hp' : ApiPc.call p = pc' at h1
      cases h1
      · subst hp'; exact h0 i p hq
      · unfold ApiPc.wakeWg at hp'; split at hp'
        · cases hp'
        · subst hp'; exact h0 i p hq
      · unfold ApiPc.wakeInit at hp'; split at hp'
        · cases hp'
        · cases hp'
        · subst hp'; exact h0 i p hq

/-! ### Requests that do no harm -/

/-- A well-formed request of the served APIs, with a header and a body of at most 4096 bytes each; a SyncGroup without assignments; a Fetch without negative
offsets which names at least as many partitions as topics. -/
def Acceptable (m : Bytes) : Prop :=
  ∃ (req : Request) (c : I32) (client : Option Bytes), m = req.message c client ∧ req.WellFormed ∧ (∀ x ∈ client, ShortStr x) ∧
    (header req.api.1 req.api.2 c client).length ≤ 4096 ∧ req.body.length ≤ 4096 ∧ (∀ g gen mem as, req = .syncGroup g gen mem as → as = []) ∧
    ∀ q, req = .fetch q → (∀ t ∈ q.topics, ∀ p ∈ t.partitions, 0 ≤ p.fetchOffset.toInt) ∧ q.topics.length ≤ (q.topics.map (·.partitions.length)).sum

/-- What a connection did and found before it brought the mock down. -/
inductive Culprit (l : List REv) : Prop where
  /-- a read failed, and not because the connection was closed -/
  | read {l0 : List REv} (h : l = l0 ++ [⟨.recv, .failed⟩])
  /-- a response could not be sent, and the probe did not find the client gone -/
  | write {l0 : List REv} {d : Bytes} {p : Probe} (h : l = l0 ++ [⟨.write d, false⟩, ⟨.isConnected, p⟩, ⟨.reqEnd, ()⟩]) (hp : ¬ dropped p)
  /-- after complete messages, the client announced a message of nearly 4 GiB or more -/
  | size {a b : Bytes} (h : received l = a ++ b) (hf : Framed a (served l)) (hb : 2 ^ 32 - 4 ≤ be (b.take 4))
  /-- the last message taken up was not acceptable -/
  | request {ms : List Bytes} {m : Bytes} (h : served l = ms ++ [m]) (hm : ¬ Acceptable m)

theorem rounds_took {sv : Server} {w w' : World} {inb inb' : Bytes} {n : Nat} {tr : List Ev} (h : Rounds (handleBody sv) w inb n tr w' inb') (l : List REv) :
    ∃ a b, received (own tr ++ l) = b ++ received l ∧ inb ++ b = a ++ inb' ∧ ∃ ms, Framed a ms ∧ served (own tr ++ l) = ms ++ served l := by
  induction h with
  | nil => exact ⟨[], [], rfl, by simp, [], .nil, rfl⟩
  | @cons w w1 w2 s s1 s2 n t1 t2 h _ ih =>
    obtain ⟨a, b, h1, h2, ms, h3, h4⟩ := ih
    rw [own_append, List.append_assoc]
    have ho := h.own
    unfold handleBody at ho
    split at ho
    · obtain ⟨h5, _⟩ := own_panic_inv ho; cases h5
    · rcases own_act_inv ho with ⟨h5, _⟩ | ⟨d, l1, e1, h5⟩
      · cases h5
      cases d with
      | true =>
        rcases own_act_inv h5 with ⟨h6, _⟩ | ⟨_, l2, e2, h6⟩
        · cases h6
        · cases (own_ret_inv h6).1
      | false =>
      rcases own_act_inv h5 with ⟨h6, _⟩ | ⟨r, l2, e2, h6⟩
      · cases h6
      cases r with
      | timeout =>
        obtain ⟨h7, e3⟩ := own_ret_inv h6
        cases h7
        rw [e1, e2, e3]
        exact ⟨a, b, h1, h2, ms, h3, h4⟩
      | closed => cases (own_ret_inv h6).1
      | failed => cases (own_panic_inv h6).1
      | data d =>
        rcases own_act_inv h6 with ⟨h7, _⟩ | ⟨s, l3, e3, h7⟩
        · cases h7
        obtain ⟨h8, e4⟩ := own_ret_inv h7
        rw [e1, e2, e3, e4]
        cases s with
        | true =>
          cases h8
          exact ⟨a, b, h1, h2, ms, h3, h4⟩
        | false =>
          cases h8
          refine ⟨a, d ++ b, ?_, by rw [← List.append_assoc]; exact h2, ms, h3, h4⟩
          show d ++ received (own _ ++ l) = _
          rw [h1, List.append_assoc]
    · next m hm =>
      rcases own_act_inv ho with ⟨h5, _⟩ | ⟨_, l1, e1, h5⟩
      · cases h5
      obtain ⟨l2, l3, res, h6, h7, e2⟩ := own_bind_ret h5
      rcases own_act_inv h7 with ⟨h8, _⟩ | ⟨_, l4, e3, h8⟩
      · cases h8
      cases res with
      | err => cases (own_panic_inv h8).1
      | done =>
      obtain ⟨h9, e4⟩ := own_ret_inv h8
      cases h9
      have hin := dispatcher_inner h6
      obtain ⟨g1, g2, g3⟩ := getMessage_ready hm
      rw [e1, e2, e3, e4]
      have ec : ∀ x : List REv, (⟨.reqBegin m, ()⟩ :: (l2 ++ [⟨.reqEnd, ()⟩])) ++ x = ⟨.reqBegin m, ()⟩ :: (l2 ++ (⟨.reqEnd, ()⟩ :: x)) := by simp
      rw [ec]
      refine ⟨s.take 4 ++ m ++ a, b, ?_, ?_, m :: ms, .cons (by rw [List.length_take]; omega) g3.symm h3, ?_⟩
      · show received (l2 ++ _) = _
        rw [received_inner hin]
        exact h1
      · have e : s = s.take 4 ++ m ++ s.drop (4 + m.length) := by
          rw [g2, List.length_take, List.length_drop, Nat.min_eq_left (by omega), List.append_assoc, ← List.drop_drop, List.take_append_drop, List.take_append_drop]
        rw [List.append_assoc _ a, ← h2, ← List.append_assoc, ← e]
      · show m :: served (l2 ++ _) = _
        rw [served_inner hin]
        show m :: served (own t2 ++ l) = _
        rw [h4]; rfl

/-- The response to an acceptable request is sent, or cannot be written. -/
theorem acceptable_run {m : Bytes} (hm : Acceptable m) {sv : Server} {n : Nat} {w w' : World} {tr : List Ev} {q : Prog DRes}
    (h : Exec w (dispatcher sv ⟨m⟩ n) tr w' q) (ha : AllSent (own tr)) (hq : Over q) : q = .ret .done := by
  obtain ⟨req, c, client, rfl, h1, h2, h3, h4, h5, h6⟩ := hm
  rcases request_run h1 h2 h3 h4 h ha hq with ⟨_, h7, _⟩ | ⟨t1, t2, w1, _, _, ⟨h7, _⟩ | ⟨_, _, h7, _⟩⟩
  · obtain ⟨q, rfl, h8⟩ := answer_panic h7
    obtain ⟨h9, h10⟩ := h6 q rfl
    refine absurd h8 (C37_no_crash_partial ?_ ?_)
    · rintro ⟨x, p⟩ hx
      simp only [FetchRequest.named, List.mem_flatMap, List.mem_map, Prod.mk.injEq] at hx
      obtain ⟨t, ht, p, hp, _, rfl⟩ := hx
      exact h9 t ht p hp
    · simpa [FetchRequest.named, List.length_flatMap] using h10
  · obtain ⟨g, gen, mem, as, rfl, h8⟩ := answer_none h7
    exact absurd (h5 _ _ _ _ rfl) h8
  · exact h7

/-- A handler that panics. -/
theorem handle_panic {sv : Server} {w w' : World} {tr : List Ev} (h : Exec w (handle sv) tr w' .panic) : Culprit (own tr) := by
  obtain ⟨n, t1, w1, inb, t2, hr, rfl, h1⟩ := exec_loop_panic h
  obtain ⟨a, b, h2, h3, ms, h4, h5⟩ := rounds_took hr (own t2)
  rw [← own_append] at h2 h5
  rcases h1 with h1 | ⟨_, _, _, _, _, _, h1⟩
  swap
  · exact absurd h1 exec_ret_panic
  unfold handleBody at h1
  split at h1
  · next hm =>
    have e := (own_panic_inv h1.own).2
    rw [e] at h2 h5
    simp only [received, served, List.append_nil] at h2 h5
    exact .size (by rw [h2]; simpa using h3) (by rw [h5]; exact h4) (getMessage_panic hm)
  · rcases own_act_inv h1.own with ⟨h6, _⟩ | ⟨d, l1, e1, h6⟩
    · cases h6
    cases d with
    | true =>
      rcases own_act_inv h6 with ⟨h6, _⟩ | ⟨_, l2, e2, h6⟩
      · cases h6
      · cases (own_ret_inv h6).1
    | false =>
    rcases own_act_inv h6 with ⟨h6, _⟩ | ⟨r, l2, e2, h6⟩
    · cases h6
    cases r with
    | timeout => cases (own_ret_inv h6).1
    | closed => cases (own_ret_inv h6).1
    | failed =>
      refine .read (l0 := own t1 ++ [⟨.isDone, false⟩]) ?_
      rw [own_append, e1, e2, (own_panic_inv h6).2]; simp
    | data d =>
      rcases own_act_inv h6 with ⟨h7, _⟩ | ⟨s, l3, e3, h7⟩
      · cases h7
      · cases (own_ret_inv h7).1
  · next m hm =>
    obtain ⟨t3, w3, u, w4, t4, h6, h7, h8, rfl⟩ := exec_act_panic h1
    have eo : own (t3 ++ ⟨true, .reqBegin m, u⟩ :: t4) = ⟨.reqBegin m, u⟩ :: own t4 := by
      rw [own_append, own_of_env h6.2]; rfl
    rw [eo] at h2 h5
    -- the last message taken up is this one
    have hs : ∀ {l1 l2 : List REv}, own t4 = l1 ++ l2 → (∀ e ∈ l1, Inner e.act) → served l2 = [] → served (own (t1 ++ (t3 ++ ⟨true, .reqBegin m, u⟩ :: t4))) = ms ++ [m] := by
      intro l1 l2 e hi hl
      rw [h5, e]
      show ms ++ m :: served (l1 ++ l2) = _
      rw [served_inner hi, hl]
    have some_failed : ∀ {l : List REv}, ¬ AllSent l → ∃ l1 l2 d, l = l1 ++ ⟨.write d, false⟩ :: l2 := by
      intro l hl
      obtain ⟨d, hd⟩ := Classical.not_forall.1 hl
      obtain ⟨l1, l2, e⟩ := List.append_of_mem (Classical.not_not.1 hd)
      exact ⟨l1, l2, d, e⟩
    rcases exec_bind_panic h8 with h8 | ⟨t5, t6, w5, res, h8, h9, e⟩
    · by_cases ha : AllSent (own t4)
      · exact .request (hs (List.append_nil _).symm (dispatcher_inner h8.own) rfl) fun hacc => by cases acceptable_run hacc h8 ha trivial
      · obtain ⟨l1, l2, d, e⟩ := some_failed ha
        rcases dispatcher_failed h8.own e with ⟨_, e⟩ | ⟨p, _, e⟩ <;> cases e
    · rcases own_act_inv h9.own with ⟨h10, _⟩ | ⟨_, l3, e3, h10⟩
      · cases h10
      cases res with
      | done => cases (own_ret_inv h10).1
      | err =>
      have e4 := (own_panic_inv h10).2
      have e5 : own t4 = own t5 ++ [⟨.reqEnd, ()⟩] := by rw [e, own_append, e3, e4]
      by_cases ha : AllSent (own t5)
      · exact .request (hs e5 (dispatcher_inner h8.own) rfl) fun hacc => by cases acceptable_run hacc h8 ha trivial
      · obtain ⟨l1, l2, d, e⟩ := some_failed ha
        rcases dispatcher_failed h8.own e with ⟨_, e⟩ | ⟨p, e6, e7⟩
        · cases e
        · refine .write (l0 := own t1 ++ ⟨.reqBegin m, u⟩ :: l1) (d := d) (p := p) ?_ ?_
          · rw [own_append, eo, e5, e, e6]; simp
          · cases p <;> first | exact id | cases e7

/-- C75: every crash of the process has one of the following causes: `net.Listen` failed, `Accept` failed on a listener that was not closed, or a connection had a
`Culprit`: a read that failed without the connection being closed, a response that could not be written to a client that is not gone, an announced message size
of nearly 4 GiB, or a request that is not acceptable. Calls of exported functions do not crash the process. Missing for the full statement: that a
request cannot crash the process, which is false (`C75_false`). -/
theorem C75_partial {sv : Server} {clock : Int} {tr : List SEv} {s : Sys} (h : Sys.Run (Sys.new sv clock) tr s) {ch : Sys.Choice} {why : Crash}
    (hc : s.next ch = .crash why) :
    (why = .listen ∧ ∃ g r, ch = .run g false ∧ s.runs[g]? = some r ∧ r.pc = .listen) ∨
    (why = .accept ∧ ∃ g, ch = .run g false ∧ g ∉ s.closes) ∨
    why = .handler ∧ ∃ c, ch = .conn c ∧ Culprit (actsOf c tr) := by
  have hneg := C48_never_negative ⟨sv, clock, tr, h⟩ ch
  rw [hc] at hneg
  cases ch with
  | api i c =>
    exfalso
    simp only [Sys.next, Sys.apiStep] at hc
    split at hc
    · cases hc
    · cases hc
    · next k r _ => cases k <;> simp only [Sys.startStep, Sys.lockMu] at hc <;> (try split at hc) <;> cases hc
    · next k b hk =>
      clear hk
      cases k
      case init k => cases k <;> simp only [Sys.stopStep, Sys.waitStep, reduceCtorEq] at hc
      all_goals
        simp only [Sys.stopStep, Sys.lockMu] at hc
        (try split at hc) <;> cases hc
    · next k r _ => cases k <;> cases hc
    · next k _ => cases k <;> cases hc
    · split at hc <;> cases hc
    · cases hc
    · next hp => exact run_calls h (fun i p hp => by cases hp) i _ hp
    · cases hc
  | run g ok =>
    simp only [Sys.next, Sys.runStep] at hc
    split at hc
    · cases hc
    next r hr =>
    split at hc
    · next hp =>
      split at hc
      · cases hc
      · next hok =>
        cases hc
        exact .inl ⟨rfl, g, r, by simpa using hok, hr, hp⟩
    · cases hc
    · split at hc
      · cases hc
      · next ho =>
        unfold Sys.initDone at hc
        split at hc <;> cases hc
        exact absurd rfl hneg
    · split at hc
      · cases hc
      · next hcl =>
        split at hc
        · cases hc
        · next hok =>
          cases hc
          exact .inr (.inl ⟨rfl, g, by simpa using hok, by simpa using hcl⟩)
    · cases hc
    · unfold Sys.lockMu at hc; split at hc <;> cases hc
    · cases hc
    · cases hc
    · cases hc
    · cases hc
    · split at hc <;> cases hc
    · cases hc
    · split at hc
      · cases hc
      · unfold Sys.wgDone at hc
        split at hc <;> cases hc
        exact absurd rfl hneg
    · cases hc
  | conn c =>
    simp only [Sys.next, Sys.connStep] at hc
    split at hc
    · cases hc
    next k hk =>
    split at hc
    · cases hc
    · next hp =>
      cases hc
      obtain ⟨w, w', es, p, h1, h2, h3⟩ := h.connection hk
      rcases h3 with h3 | ⟨h3, _⟩
      · rw [hp] at h3; cases h3
        exact .inr (.inr ⟨rfl, c, rfl, h2 ▸ handle_panic h1⟩)
      · exact absurd hp (h3 _)
    · cases hc
    · unfold Sys.lockMu at hc; split at hc <;> cases hc
    · split at hc <;> cases hc
    · split at hc
      · cases hc
      · unfold Sys.activeDone at hc
        split at hc <;> cases hc
        exact absurd rfl hneg
    · split at hc
      · cases hc
      · unfold Sys.wgDone at hc
        split at hc <;> cases hc
        exact absurd rfl hneg
    · cases hc
    · cases hc
  | parentCancel => cases hc

/-- ApiVersions version 3, which current clients begin with: correlation id 1, client id "c", no tags; client software name and version "c", no tags. -/
def apiVersions3 : Bytes := [0, 18, 0, 3, 0, 0, 0, 1, 0, 1, 99, 0, 2, 99, 2, 99, 0]

/-- Two clients connect; the second asks for ApiVersions version 3. -/
def crashing : List Pick := starts 0 ++ opens 0 ++ accepts 0 ++ accepts 0 ++ [.conn 0, .conn 0] ++
  [.conn 1, .conn 1, .recv 1 (.data ([0, 0, 0, 17] ++ apiVersions3)), .conn 1, .conn 1, .conn 1, .conn 1]

set_option maxRecDepth 100000 in
/-- Against the full statement: a client that asks for a version of ApiVersions that the mock does not serve ends the process, while another client is connected
and no read or write has failed. -/
theorem C75_false : ∃ tr s, Sys.Run (Sys.new ⟨9092, []⟩ 0) tr s ∧ s.next (.conn 1) = .crash .handler ∧
    received (actsOf 1 tr) = [0, 0, 0, 17] ++ apiVersions3 ∧ served (actsOf 1 tr) = [apiVersions3] ∧ AllSent (actsOf 1 tr) ∧ actsOf 0 tr = [⟨.isDone, false⟩] ∧ s.clients = [(1, 0), (2, 1)] := by
  refine ⟨eventsOf crashing (Sys.new ⟨9092, []⟩ 0), stateAfter crashing (Sys.new ⟨9092, []⟩ 0), stateAfter_run _ _, rfl, rfl, rfl, ?_, rfl, rfl⟩
  have e : actsOf 1 (eventsOf crashing (Sys.new ⟨9092, []⟩ 0)) = [⟨.isDone, false⟩, ⟨.recv, .data ([0, 0, 0, 17] ++ apiVersions3)⟩, ⟨.isStopping, false⟩, ⟨.reqBegin apiVersions3, ()⟩, ⟨.reqEnd, ()⟩] := rfl
  intro b hb
  rw [e] at hb
  simp at hb

/-- A Fetch from offset 0 of one partition is acceptable. -/
example : Acceptable (askFetch.message 1 (some (lit ['c']))) := by
  refine ⟨_, _, _, rfl, askFetch_wf, ?_, by decide, by decide, nofun, ?_⟩
  · intro x hx; cases hx; unfold ShortStr; decide
  · intro q hq
    cases hq
    exact ⟨by decide, by decide⟩

end KM.Props
