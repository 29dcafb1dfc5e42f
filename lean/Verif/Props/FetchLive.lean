import Verif.Props.Fetch
import Verif.FetchLive
/-
Properties C34 (consumers that follow HighWatermark), C36 (completion) and C52 (a waiting Fetch ends on cancellation).
-/
namespace KM.Props
open KM

/-! ### C34 -/

/-- A consumer of one partition: fetches repeatedly, each time from the HighWatermark of the last answer. Each entry of the list gives
MaxWaitMs, MinBytes and the size limit of one fetch. The result is everything received, and the next offset. -/
def consume (t : Bytes) (p : I32) : List (I32 × I32 × I32) → I64 → Prog (List MessageV1 × I64)
  | [], off => .ret ([], off)
  | (wait, minb, maxb) :: rest, off =>
    (fetch ⟨-1, wait, minb, [⟨t, [⟨p, off, maxb⟩]⟩]⟩).bind fun resp =>
      match resp.responses with
      | [⟨_, [rp]⟩] => (consume t p rest rp.highWatermark).map fun (ms, o) => (rp.records.msgs ++ ms, o)
      | _ => .panic

theorem Labelled.append {s : Int} {r1 r2 : List Record} {m1 m2 : List MessageV1} (h1 : Labelled s r1 m1) (h2 : Labelled (s + m1.length) r2 m2) :
    Labelled s (r1 ++ r2) (m1 ++ m2) := by
  refine ⟨by simp [h1.1, h2.1], ?_⟩
  intro i r m hr hm
  by_cases hi : i < m1.length
  · rw [List.getElem?_append_left (by rw [← h1.1]; exact hi)] at hr
    rw [List.getElem?_append_left hi] at hm
    exact h1.2 i r m hr hm
  · rw [List.getElem?_append_right (by rw [← h1.1]; omega)] at hr
    rw [List.getElem?_append_right (by omega)] at hm
    rw [← h1.1] at hr
    obtain ⟨e1, e2⟩ := h2.2 _ r m hr hm
    refine ⟨?_, e2⟩
    rw [e1]; congr 1; omega

theorem Labelled.nil (s : Int) : Labelled s [] [] := ⟨rfl, by intro i r m h; cases h⟩

theorem slice_add (log : List Record) {s : Int} (hs : 0 ≤ s) (a b : Nat) : slice log s (a + b) = slice log s a ++ slice log (s + a) b := by
  unfold slice
  rw [List.take_add, List.drop_drop]
  congr 3; omega

/-- C34: a consumer that follows HighWatermark receives exactly the records of the log from its first offset to its next one, in order,
each once, whatever is posted meanwhile; after its first fetch it has everything that was there when it started. -/
theorem C34_consumer_partial {t : Bytes} {p : I32} {cs : List (I32 × I32 × I32)} {off o : I64} {ms : List MessageV1} {w w' : World} {tr : List Ev}
    (h : Exec w (consume t p cs off) tr w' (.ret (ms, o))) (hp : w.hasPartition t p) (h0 : 0 ≤ off.toInt) (hlen : (w'.log t p).length < 2 ^ 63) :
    Labelled off.toInt (slice (w'.log t p) off.toInt ms.length) ms ∧ o.toInt = off.toInt + ms.length ∧
    (cs ≠ [] → (w.log t p).length ≤ o.toInt) := by
  induction cs generalizing w tr off ms with
  | nil =>
    obtain ⟨e, _⟩ := exec_ret_inv h
    cases e
    exact ⟨by simpa [slice] using Labelled.nil _, by simp, by simp⟩
  | cons c cs ih =>
    obtain ⟨wait, minb, maxb⟩ := c
    obtain ⟨t1, t2, w1, resp, h1, h2, rfl⟩ := exec_bind_ret h
    have hans := C34_delivers_everything_partial h1 (by simp)
    obtain ⟨th, rs⟩ := resp
    dsimp only at hans h2
    cases hans with
    | @cons _ rt _ _ hab hrest =>
      cases hrest
      obtain ⟨rt, ps⟩ := rt
      dsimp only at hab
      cases hab with
      | @cons _ rp _ _ hcd hrest =>
        cases hrest
        obtain ⟨e1, e2, e3⟩ := hcd hp
        dsimp only at h2 e1 e2 e3
        obtain ⟨⟨ms2, o2⟩, h3, e⟩ := exec_map_ret h2
        cases e
        have hs1 := h1.steps
        have hs3 := h3.steps
        have hw1 : Labelled off.toInt (slice (w'.log t p) off.toInt rp.records.msgs.length) rp.records.msgs := by
          have : slice (w'.log t p) off.toInt rp.records.msgs.length = slice (w1.log t p) off.toInt rp.records.msgs.length := by
            unfold slice
            have hl : rp.records.msgs.length ≤ ((w1.log t p).drop off.toInt.toNat).length := by
              have := e2.1
              unfold slice at this
              rw [List.length_take] at this; omega
            rw [hs3.log, List.drop_append, List.take_append_of_le_length hl]
          rw [this]; exact e2
        have hhw : rp.highWatermark.toInt = off.toInt + rp.records.msgs.length := by
          rw [e3, BitVec.toInt_ofInt]
          have hl := hw1.1
          unfold slice at hl
          rw [List.length_take, List.length_drop] at hl
          have := BitVec.toInt_lt (x := off)
          apply Int.bmod_eq_of_le <;> omega
        obtain ⟨i1, i2, i3⟩ := ih h3 (hs1.hasPartition hp) (by omega)
        refine ⟨?_, ?_, fun _ => ?_⟩
        · rw [List.length_append, slice_add _ h0]
          refine hw1.append ?_
          rw [hhw] at i1
          exact i1
        · have i2' : o2.toInt = _ := i2
          show o2.toInt = _
          rw [i2', hhw, List.length_append]; push_cast; show _ = off.toInt + (_ + (ms2.length : Int)); omega
        · have i2' : o2.toInt = _ := i2
          show _ ≤ o2.toInt
          rw [i2', hhw]; omega

/-- Example: two fetches, and a record posted by someone else after the consumer has started. -/
example : ∃ tr w' ms, Exec exFetchWorld (consume [116] 0 [(0, 1, 1000), (0, 1, 1000)] 0) tr w' (.ret (ms, 3)) ∧
    ms.map (·.value) = [some [1], some [2], none] ∧ ms.map (·.offset) = [0, 1, 2] :=
  ⟨_, _, [MessageV1.ofRecord 0 ⟨0, 10, none, some [1], []⟩, MessageV1.ofRecord 1 ⟨0, 30, none, some [2], []⟩, MessageV1.ofRecord 2 ⟨0, 77, none, none, []⟩],
    Prog.run_ret (sch := go 10 ++ .env (.post [116] 0 ⟨0, 77, none, none, []⟩) :: go 40) rfl, by decide, by decide⟩

/-! ### C36 -/

/-- Number of records of a log from an offset on. -/
def available (w : World) (src : Bytes × FetchPartition) : List Record := (w.log src.1 src.2.partition).drop src.2.fetchOffset.toInt.toNat

/-- C36 when the records fit: if everything that has arrived in the named partitions from the requested offsets on fits the limits, the
number of actions Fetch has performed is bounded by a number that depends only on the request and on how many records there are. It grows
by a round for every 20 ms of the maximum wait time. So Fetch cannot run forever unless records keep arriving.
Missing for the full statement: the records that do not fit, for which it is false (`C36_oversize_never_returns`, `C36_false`). -/
theorem C36_completes_partial {q : FetchRequest} {w w' : World} {tr : List Ev} {p' : Prog FetchResponse} (h : Exec w (fetch q) tr w' p')
    (hsmall : ∀ src ∈ q.named, ∀ r ∈ w'.log src.1 src.2.partition, wireSize r < 2 ^ 31)
    (hfit : ∀ src ∈ q.named, (((available w' src).map wireSize).sum : Nat) ≤ max 0 src.2.maxBytes.toInt) :
    (own tr).length ≤ q.topics.length + q.named.length + 1 +
      ((q.named.map fun src => (available w' src).length).sum + q.maxWaitMs.toInt.toNat / 20 + 2) * (q.named.length + 3) := by
  have hf : ∀ src ∈ q.named, Fits w' src := by
    intro src hs
    refine ⟨?_, ?_⟩
    · intro r hr
      rw [recSize_eq (hsmall src hs r hr)]
      unfold wireSize; omega
    · rw [recSize_sum fun r hr => hsmall src hs r (List.mem_of_mem_drop hr)]
      exact hfit src hs
  have hsetup : ∀ {w w' : World} {t : List Ev} {x : Prog (List FetchData)}, Exec w (fetchSetup q.topics) t w' x →
      (own t).length ≤ q.topics.length + q.named.length := by
    intro w w' t x hx
    have := (hx.cost (ok := anyResp) (fun _ _ => trivial) (fetchSetup_cost q.topics)).1
    rwa [show cost stepCost (own t) = (own t).length from cost_one _] at this
  generalize hB : ((q.named.map fun src => (available w' src).length).sum + q.maxWaitMs.toInt.toNat / 20 + 2) * (q.named.length + 3) = B
  rcases exec_bind_inv h with ⟨x, h1, _⟩ | ⟨t1, t2, w1, fds, h1, h2, rfl⟩
  · have := hsetup h1; omega
  · rw [own_append, List.length_append]
    have c1 := hsetup h1
    rcases exec_act_inv h2 with ⟨_, h3⟩ | ⟨t3, w3, r3, w4, t4, h3, s3, h4, rfl⟩
    · rw [own_envSteps h3]; simp; omega
    · rw [own_append, own_envSteps h3, own_mine, List.nil_append, List.length_cons]
      suffices (own t4).length ≤ B by omega
      obtain ⟨n, t5, w5, s1, t6, hr, rfl, hl⟩ := exec_loop_inv h4
      have i0 := (fetchSetup_ret h1).imp fun _ _ hi => hi.steps (h3.1.append (.cons ⟨true, .now, r3⟩ s3 (.nil _)))
      have hlen : fds.length = q.named.length := i0.length_eq.symm
      have hlast : ∃ t7 t8 w7 x, t6 = t7 ++ t8 ∧ Exec w5 (fetchBody (r3 + q.maxWaitMs.toInt * 1000000) s1) t7 w7 x ∧ own t8 = [] ∧ Steps w5 t6 w' := by
        rcases hl with ⟨_, h5⟩ | ⟨x, h5, _⟩ | ⟨b, t7, t8, w2, rfl, h5, h6⟩
        · exact ⟨[], t6, w5, _, rfl, .refl _ _, own_envSteps h5, h5.1⟩
        · exact ⟨t6, [], w', x, by simp, h5, rfl, h5.steps⟩
        · exact ⟨t7, t8, w2, _, rfl, h5, own_of_ret h6 (fetchTail q b), h5.steps.append h6.steps⟩
      obtain ⟨t7, t8, w7, x, rfl, h5, h6, h7⟩ := hlast
      obtain ⟨k, k1, k2⟩ := fetchRounds_bound hr i0 h7 hf
      obtain ⟨l1, l2⟩ := fetchRounds_own hr
      have c2 := (h5.cost (ok := anyResp) (fun _ _ => trivial) (fetchBody_cost _ s1)).1
      rw [show cost stepCost (own t7) = (own t7).length from cost_one _] at c2
      have hrem := remAll_le (wf := w') i0
      rw [own_append, own_append, h6, List.append_nil, List.length_append]
      have hk : k ≤ q.maxWaitMs.toInt.toNat / 20 + 1 := by
        obtain ⟨rfl, hr3⟩ := s3
        have hr3' : (r3 : Int) = w4.clock := hr3
        rcases k2 with k2 | k2
        · omega
        · rw [hr3'] at k2; omega
      have hn : n + 1 ≤ (q.named.map fun src => (available w' src).length).sum + q.maxWaitMs.toInt.toNat / 20 + 2 := by
        unfold available
        have : remAll w' (q.topics.flatMap fun t => t.partitions.map fun p => (t.topic, p)) fds ≤
            (q.named.map fun src => ((w'.log src.1 src.2.partition).drop src.2.fetchOffset.toInt.toNat).length).sum := hrem
        dsimp only at k1
        omega
      have := Nat.mul_le_mul_right (q.named.length + 3) hn
      rw [hB, Nat.add_mul, Nat.one_mul] at this
      dsimp only at l1 l2
      rw [hlen] at l1 l2
      omega

/-- Example for C36: the request of `exFetch` on `exFetchWorld` meets the conditions, after part of a run. -/
example : ∃ tr w' p', Exec exFetchWorld (fetch exFetch) tr w' p' ∧ (own tr).length = 5 ∧
    ∀ src ∈ exFetch.named, (((available w' src).map wireSize).sum : Nat) ≤ max 0 src.2.maxBytes.toInt :=
  ⟨_, _, _, Prog.run_sound (go 6) _ _, by decide, by decide⟩

/-! ### C52 -/

/-- Number of sleeps among the actions. -/
def sleeps (l : List REv) : Nat := l.countP fun e => match e.act with | .sleep _ => true | _ => false

theorem sleeps_eq (l : List REv) : sleeps l = cost sleepCost l := by
  induction l with
  | nil => rfl
  | cons x l ih =>
    obtain ⟨a, r⟩ := x
    rw [cost_cons, ← ih]
    unfold sleeps
    rw [List.countP_cons]
    cases a <;> simp [sleepCost] <;> omega

/-- C52: once the server is told to finish (at the world `wc` of the run), a Fetch that finds no record sleeps at most once more (20 ms) and
is through after a number of actions that depends only on the size of the request, whatever its maximum wait time. -/
theorem C52_ends_after_finish {q : FetchRequest} {w wc w' : World} {ta tb : List Ev} {p1 p2 : Prog FetchResponse} (h1 : Exec w (fetch q) ta wc p1)
    (hc : wc.cancelled = true) (h2 : Exec wc p1 tb w' p2)
    (hnone : ∀ t p o r, (⟨.fetchRecord t p o, r⟩ : REv) ∈ own tb → r = some none) :
    sleeps (own tb) ≤ 1 ∧ (own tb).length ≤ q.topics.length + q.named.length + 1 + 2 * (q.named.length + 3) := by
  rw [sleeps_eq]
  have hq : ∀ e ∈ own tb, quietResp e.act e.resp := by
    rintro ⟨a, r⟩ he
    cases a <;> first | trivial | exact hnone _ _ _ _ he
  have hok := cancelled_resp h2 hc hq
  have hone : ∀ l, cost stepCost l = l.length := cost_one
  have hok1 : ∀ {a b : List Ev}, (∀ e ∈ own (a ++ b), cancelledResp e.act e.resp) → ∀ e ∈ own a, cancelledResp e.act e.resp := by
    intro a b h e he; refine h e ?_; rw [own_append]; simp [he]
  have hok2 : ∀ {a b : List Ev}, (∀ e ∈ own (a ++ b), cancelledResp e.act e.resp) → ∀ e ∈ own b, cancelledResp e.act e.resp := by
    intro a b h e he; refine h e ?_; rw [own_append]; simp [he]
  -- from the call of `time.Now` on
  have hF : ∀ {fds : List FetchData} {wx wy : World} {t : List Ev} {p' : Prog FetchResponse}, (∀ e ∈ own t, cancelledResp e.act e.resp) →
      Exec wx (.act .now fun t => .loop (⟨fds, false⟩ : FetchSt) (fetchBody (t + q.maxWaitMs.toInt * 1000000)) fun fds =>
        match fetchRespond q.topics fds with
        | none => .panic
        | some rs => .ret { throttleTimeMs := 0, responses := rs }) t wy p' →
      (own t).length ≤ 1 + (fds.length + 2) ∧ cost sleepCost (own t) = 0 := by
    intro fds wx wy t p' ho hx
    rcases exec_act_inv hx with ⟨_, h3⟩ | ⟨t3, w3, r3, w4, t4, h3, s3, h4, rfl⟩
    · rw [own_envSteps h3]; simp
    · have e : own (t3 ++ ⟨true, .now, r3⟩ :: t4) = ⟨.now, r3⟩ :: own t4 := by rw [own_append, own_envSteps h3]; rfl
      have := loop_cancelled (fetchTail q) h4 fun e' he => ho e' (by rw [e]; exact List.mem_cons_of_mem _ he)
      rw [e, cost_cons, List.length_cons]
      dsimp only at this
      exact ⟨by omega, by rw [this.2]; rfl⟩
  rcases exec_bind_inv h1 with ⟨x, h3, rfl⟩ | ⟨t1, t2, w1, fds, h3, h4, rfl⟩
  · -- cancelled during the set-up
    have cs := h3.cost (ok := anyResp) (fun _ _ => trivial) (fetchSetup_cost q.topics)
    have cs' := h3.cost (ok := anyResp) (fun _ _ => trivial) (fetchSetup_sleeps q.topics)
    rcases exec_bind_inv h2 with ⟨x', h5, _⟩ | ⟨t3, t4, w3, fds, h5, h6, rfl⟩
    · have c1 := (h5.cost (ok := anyResp) (fun _ _ => trivial) cs.2).1
      have c2 := (h5.cost (ok := anyResp) (fun _ _ => trivial) cs'.2).1
      rw [hone] at c1
      unfold FetchRequest.named
      omega
    · have c1 := (h5.cost (ok := anyResp) (fun _ _ => trivial) cs.2).1
      have c2 := (h5.cost (ok := anyResp) (fun _ _ => trivial) cs'.2).1
      rw [hone] at c1
      have hl := (fetchSetup_ret (h3.trans h5)).length_eq
      have c3 := hF (hok2 hok) h6
      rw [own_append, cost_append, List.length_append]
      unfold FetchRequest.named
      omega
  · have hl : fds.length = q.named.length := (fetchSetup_ret h3).length_eq.symm
    rcases exec_act_inv h4 with ⟨rfl, h5⟩ | ⟨t3, w3, r3, w4, t4, h5, s5, h6, rfl⟩
    · have := hF hok h2
      omega
    · obtain ⟨n, t5, w5, s1, t6, hr, rfl, hl'⟩ := exec_loop_inv h6
      have l1 := (fetchRounds_own hr).1
      dsimp only at l1
      rcases hl' with ⟨rfl, _⟩ | ⟨x, h7, rfl⟩ | ⟨b, t7, t8, w7, rfl, h7, h8⟩
      · have := loop_cancelled (fetchTail q) h2 hok
        omega
      · have cs := h7.cost (ok := anyResp) (fun _ _ => trivial) (fetchBody_cost _ s1)
        have cs' := h7.cost (ok := anyResp) (fun _ _ => trivial) (fetchBody_sleeps _ s1)
        rcases exec_bind_inv h2 with ⟨x', h9, _⟩ | ⟨t9, t10, w9, o, h9, h10, rfl⟩
        · have c1 := (h9.cost (ok := anyResp) (fun _ _ => trivial) cs.2).1
          have c2 := (h9.cost (ok := anyResp) (fun _ _ => trivial) cs'.2).1
          rw [hone] at c1
          omega
        · have c1 := (h9.cost (ok := anyResp) (fun _ _ => trivial) cs.2).1
          have c2 := (h9.cost (ok := anyResp) (fun _ _ => trivial) cs'.2).1
          rw [hone] at c1
          rw [own_append, cost_append, List.length_append]
          cases o with
          | inl s2 =>
            obtain ⟨_, _, _, _, _, hp, _, _, _, e1, _⟩ := fetchBody_ret (h7.trans h9)
            have e2 := hp.length
            rw [← e1] at e2
            have c3 := loop_cancelled (fetchTail q) h10 (hok2 hok)
            omega
          | inr b =>
            rw [own_of_ret h10 (fetchTail q b)]
            simp; omega
      · have hp1 : p1 = .panic ∨ ∃ v, p1 = .ret v := by
          dsimp only at h8
          generalize fetchRespond q.topics b = rs at h8
          cases rs with
          | none => exact .inl (exec_panic_inv h8).1
          | some rs => exact .inr ⟨_, (exec_ret_inv h8).1⟩
        rw [own_of_ret h2 hp1]
        simp

/-- Example for C52: a Fetch on an empty partition with a very long wait; cancelled after its first sleep, it returns in the next round. -/
example : ∃ ta wc p1 tb w', Exec exFetchWorld (fetch ⟨-1, 2000000000, 1, [⟨[116], [⟨0, 2, 1000⟩]⟩]⟩) ta wc p1 ∧ wc.cancelled = true ∧
    Exec wc p1 tb w' (.ret ⟨0, [⟨[116], [⟨0, 0, 2, ⟨[], 2, 0⟩⟩]⟩]⟩) ∧ sleeps (own ta) = 1 ∧ (own tb).length = 3 :=
  ⟨_, _, _, _, _, Prog.run_sound (go 8 ++ [Sched.env .cancel]) _ _, rfl, Prog.run_ret (sch := go 8) rfl, by decide, by decide⟩

end KM.Props
