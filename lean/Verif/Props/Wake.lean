import Verif.Props.Poll
import Verif.Props.Visible
/-
Property C122: a Fetch that waits notices new records at its next look.
-/
namespace KM.Props
open KM Spec

/-! ### The set-up -/

/-- After the set-up every partition stands at the requested offset. -/
theorem fetchSetup_fresh {topics : List FetchTopic} {fds : List FetchData} {w w' : World} {tr : List Ev}
    (h : Exec w (fetchSetup topics) tr w' (.ret fds)) :
    List.Forall₂ (fun (src : Bytes × FetchPartition) (fd : FetchData) => fd.offset = src.2.fetchOffset.toInt)
      (topics.flatMap fun t => t.partitions.map fun p => (t.topic, p)) fds := by
  obtain ⟨ls, h0, rfl⟩ := exec_map_ret h
  have h1 := forEach_ret h0
  rw [List.flatMap_def]
  apply List.rel_flatten
  rw [List.forall₂_map_left_iff]
  refine List.Forall₂.imp ?_ h1
  rintro ft l ⟨t0, t, t1, wa, wb, rfl, ha, hx, hb⟩
  obtain ⟨t2, w1, kt, w2, t3, h2, s1, h3, rfl⟩ := exec_act_ret hx
  rw [List.forall₂_map_left_iff]
  refine List.Forall₂.imp ?_ (forEach_ret h3)
  rintro par fd ⟨t4, t5, t6, wc, wd, rfl, hc, hy, hd⟩
  unfold fetchSetupPartition at hy
  cases kt with
  | false =>
    obtain ⟨e, h5⟩ := exec_ret_inv hy
    cases e
    rfl
  | true =>
    dsimp only at hy
    rw [if_pos rfl] at hy
    obtain ⟨t7, w7, r7, w8, t8, h7, s7, h8, rfl⟩ := exec_act_ret hy
    obtain ⟨e, h9⟩ := exec_ret_inv h8
    cases e
    rfl

/-- A partition that is there when the set-up begins is found. -/
theorem fetchSetup_finds {topics : List FetchTopic} {fds : List FetchData} {w w' : World} {tr : List Ev} {src : Bytes × FetchPartition}
    (h : Exec w (fetchSetup topics) tr w' (.ret fds)) (hm : src ∈ topics.flatMap fun t => t.partitions.map fun p => (t.topic, p))
    (hp : w.hasPartition src.1 src.2.partition) :
    ∃ fd ∈ fds, fd.kp = some (src.1, src.2.partition) ∧ fd.offset = src.2.fetchOffset.toInt := by
  have h1 := fetchSetup_ret h
  have h2 := fetchSetup_fresh h
  obtain ⟨i, hi⟩ := List.getElem?_of_mem hm
  obtain ⟨fd, hfd, h3, h4⟩ : ∃ fd, fds[i]? = some fd ∧ FdInv (Missing w tr w') w' src fd ∧ fd.offset = src.2.fetchOffset.toInt := by
    clear hm h
    generalize (topics.flatMap fun t => t.partitions.map fun p => (t.topic, p)) = l at h1 h2 hi
    induction h1 generalizing i with
    | nil => simp at hi
    | cons ha _ ih =>
      cases h2 with
      | cons hb h2 =>
        cases i with
        | zero => cases hi; exact ⟨_, rfl, ha, hb⟩
        | succ i => exact ih i h2 hi
  refine ⟨fd, List.mem_of_getElem? hfd, ?_, h4⟩
  obtain ⟨_, h5, _⟩ := h3
  rcases h5 with ⟨_, ta, tb, wm, rfl, sa, _, hn⟩ | ⟨h5, _⟩
  · exact absurd (sa.hasPartition hp) hn
  · exact h5

/-! ### The loop -/

/-- At this point of its loop Fetch has seen a record, or there is one that it will see in its next pass. -/
def Ready (w : World) (st : FetchSt) : Prop :=
  st.hasOne = true ∨ ∃ fd ∈ st.fds, ∃ t p, fd.kp = some (t, p) ∧ fd.offset < ((w.log t p).length : Int)

theorem Ready.body {ex : Int} {st : FetchSt} {w w' : World} {tr : List Ev} {x : Prog (FetchSt ⊕ List FetchData)} (hr : Ready w st)
    (h : Exec w (fetchBody ex st) tr w' x) : cost sleepCost (own tr) = 0 ∧ ∀ s1, x = .ret (.inl s1) → s1.hasOne = true := by
  have hc := fetchPass_cost (c := sleepCost) (ok := anyResp) (n := 0) (fun _ _ _ => Nat.le_refl _) st.fds
  rcases exec_bind_inv h with ⟨y, h1, rfl⟩ | ⟨t1, t2, w1, ⟨fds, m⟩, h1, h2, rfl⟩
  · have := (h1.cost (ok := anyResp) (fun _ _ => trivial) hc).1
    refine ⟨by omega, ?_⟩
    intro s1 e
    cases y with
    | ret v =>
      obtain ⟨fds, m⟩ := v
      have hm : (st.hasOne || m) = true := by
        cases m with
        | true => simp
        | false =>
          rcases hr with hr | ⟨fd, hfd, t, p, hk, hlt⟩
          · simp [hr]
          · obtain ⟨_, hq⟩ := (fetchPass_ret h1).quiet
            obtain ⟨ta, tb, wm, rfl, sa, _, _, hlen⟩ := hq fd hfd t p hk
            rw [sa.log, List.length_append] at hlen
            omega
      simp only [Prog.bind_ret] at e
      cases m with
      | true => rw [if_pos rfl] at e; cases e; simp
      | false =>
        rw [if_neg (by decide), if_pos (by simpa using hm)] at e
        cases e
    | panic => cases e
    | act => cases e
    | loop => cases e
  · have := (h1.cost (ok := anyResp) (fun _ _ => trivial) hc).1
    have hm : (st.hasOne || m) = true := by
      cases m with
      | true => simp
      | false =>
        rcases hr with hr | ⟨fd, hfd, t, p, hk, hlt⟩
        · simp [hr]
        · obtain ⟨_, hq⟩ := (fetchPass_ret h1).quiet
          obtain ⟨ta, tb, wm, rfl, sa, _, _, hlen⟩ := hq fd hfd t p hk
          rw [sa.log, List.length_append] at hlen
          omega
    dsimp only at h2
    rw [own_append, cost_append]
    cases m with
    | true =>
      rw [if_pos rfl] at h2
      obtain ⟨rfl, h3⟩ := exec_ret_inv h2
      rw [own_envSteps h3]
      refine ⟨by simp; omega, ?_⟩
      intro s1 e; cases e; simp
    | false =>
      rw [if_neg (by decide), if_pos (by simpa using hm)] at h2
      obtain ⟨rfl, h3⟩ := exec_ret_inv h2
      rw [own_envSteps h3]
      refine ⟨by simp; omega, ?_⟩
      intro s1 e; cases e

theorem Ready.rounds {ex : Int} {st st' : FetchSt} {n : Nat} {w w' : World} {tr : List Ev} (h : Rounds (fetchBody ex) w st n tr w' st') (hr : Ready w st) :
    cost sleepCost (own tr) = 0 ∧ Ready w' st' := by
  induction h with
  | nil => exact ⟨by simp [own], hr⟩
  | cons h _ ih =>
    obtain ⟨h1, h2⟩ := hr.body h
    obtain ⟨h3, h4⟩ := ih (.inl (h2 _ rfl))
    rw [own_append, cost_append]
    exact ⟨by omega, h4⟩

/-- From such a point on Fetch does not sleep. -/
theorem Ready.loop {ex : Int} {st : FetchSt} {k : List FetchData → Prog FetchResponse} (hk : ∀ fds, k fds = .panic ∨ ∃ v, k fds = .ret v)
    {w w' : World} {tr : List Ev} {p' : Prog FetchResponse} (hr : Ready w st) (h : Exec w (.loop st (fetchBody ex) k) tr w' p') :
    cost sleepCost (own tr) = 0 := by
  obtain ⟨n, t1, w1, s1, t2, h1, rfl, h2⟩ := exec_loop_inv h
  obtain ⟨c1, r1⟩ := Ready.rounds h1 hr
  rw [own_append, cost_append]
  rcases h2 with ⟨_, h2⟩ | ⟨x, h2, _⟩ | ⟨b, t3, t4, w2, rfl, h2, h3⟩
  · rw [own_envSteps h2]; simpa using c1
  · have := (r1.body h2).1; omega
  · have := (r1.body h2).1
    rw [own_append, cost_append, own_of_ret h3 (hk b), cost_nil]
    omega

/-- The partition is known to Fetch, which has not moved in it unless it has seen a record. -/
def Watching (src : Bytes × FetchPartition) (st : FetchSt) : Prop :=
  st.hasOne = true ∨ ∃ fd ∈ st.fds, fd.kp = some (src.1, src.2.partition) ∧ fd.offset = src.2.fetchOffset.toInt

theorem Watching.body {ex : Int} {src : Bytes × FetchPartition} {st s1 : FetchSt} {w w' : World} {tr : List Ev} (hw : Watching src st)
    (h : Exec w (fetchBody ex st) tr w' (.ret (.inl s1))) : Watching src s1 := by
  obtain ⟨ta, wc, fds, m, tb, hp, _, _, _, e1, e2, _⟩ := fetchBody_ret h
  rcases hw with hw | hw
  · exact .inl (by rw [e2, hw]; rfl)
  · cases m with
    | true => exact .inl (by rw [e2]; simp)
    | false =>
      obtain ⟨rfl, _⟩ := hp.quiet
      rw [← e1] at hw
      exact .inr hw

theorem Watching.rounds {ex : Int} {src : Bytes × FetchPartition} {st st' : FetchSt} {n : Nat} {w w' : World} {tr : List Ev}
    (h : Rounds (fetchBody ex) w st n tr w' st') (hw : Watching src st) : Watching src st' :=
  Rounds.inv (I := fun _ st => Watching src st) (fun hw hx => hw.body hx) h hw

theorem Watching.ready {src : Bytes × FetchPartition} {st : FetchSt} {w w' : World} {tr : List Ev} (h : Watching src st) (ha : available w src ≠ [])
    (hs : Steps w tr w') : Ready w' st := by
  rcases h with h | ⟨fd, hm, hk, ho⟩
  · exact .inl h
  · refine .inr ⟨fd, hm, _, _, hk, ?_⟩
    unfold available at ha
    have h1 : src.2.fetchOffset.toInt.toNat < (w.log src.1 src.2.partition).length := by
      rcases Nat.lt_or_ge src.2.fetchOffset.toInt.toNat (w.log src.1 src.2.partition).length with h | h
      · exact h
      · exact absurd (List.drop_eq_nil_of_le h) ha
    rw [hs.log, List.length_append, ho]
    omega

/-! ### C122 -/

/-- **C122**, the wait: a Fetch names a partition that is there when it begins. From the moment `wm` of its run on at which there is a record for it in this
partition, wherever Fetch is at this moment, it sleeps at most once more (20 ms), whatever its maximum wait time and whatever the other goroutines do.
Missing for the full statement: partitions that are created after Fetch has looked for them, for which it is false, `C122_false`. -/
theorem C122_wakes_partial {q : FetchRequest} {w wm w' : World} {ta tb : List Ev} {p1 p2 : Prog FetchResponse} {src : Bytes × FetchPartition}
    (h1 : Exec w (fetch q) ta wm p1) (h2 : Exec wm p1 tb w' p2) (hm : src ∈ q.named) (hp : w.hasPartition src.1 src.2.partition)
    (ha : available wm src ≠ []) : sleeps (own tb) ≤ 1 := by
  rw [sleeps_eq]
  -- from the call of `time.Now` on
  have hF : ∀ {fds : List FetchData} {wx wy : World} {t t0 : List Ev} {p' : Prog FetchResponse}, Watching src ⟨fds, false⟩ → Steps wm t0 wx →
      Exec wx (.act .now fun t => .loop (⟨fds, false⟩ : FetchSt) (fetchBody (t + q.maxWaitMs.toInt * 1000000)) fun fds =>
        match fetchRespond q.topics fds with
        | none => .panic
        | some rs => .ret { throttleTimeMs := 0, responses := rs }) t wy p' →
      cost sleepCost (own t) = 0 := by
    intro fds wx wy t t0 p' hw hs hx
    rcases exec_act_inv hx with ⟨_, h3⟩ | ⟨t3, w3, r3, w4, t4, h3, s3, h4, rfl⟩
    · rw [own_envSteps h3]; rfl
    · have e : own (t3 ++ ⟨true, .now, r3⟩ :: t4) = ⟨.now, r3⟩ :: own t4 := by rw [own_append, own_envSteps h3]; rfl
      have := Ready.loop (fetchTail q) (hw.ready ha (hs.append (h3.1.append (.cons ⟨true, .now, r3⟩ s3 (.nil _))))) h4
      rw [e, cost_cons, this]; rfl
  rcases exec_bind_inv h1 with ⟨x, h3, rfl⟩ | ⟨t1, t2, w1, fds, h3, h4, rfl⟩
  · have cs' := h3.cost (ok := anyResp) (fun _ _ => trivial) (fetchSetup_sleeps q.topics)
    rcases exec_bind_inv h2 with ⟨x', h5, _⟩ | ⟨t3, t4, w3, fds, h5, h6, rfl⟩
    · have c2 := (h5.cost (ok := anyResp) (fun _ _ => trivial) cs'.2).1
      omega
    · have c2 := (h5.cost (ok := anyResp) (fun _ _ => trivial) cs'.2).1
      have c3 := hF (.inr (fetchSetup_finds (h3.trans h5) hm hp)) h5.steps h6
      rw [own_append, cost_append]
      omega
  · have hw : Watching src ⟨fds, false⟩ := .inr (fetchSetup_finds h3 hm hp)
    rcases exec_act_inv h4 with ⟨rfl, h5⟩ | ⟨t3, w3, r3, w4, t4, h5, s5, h6, rfl⟩
    · have := hF hw (.nil _) h2
      omega
    · obtain ⟨n, t5, w5, s1, t6, hr, rfl, hl'⟩ := exec_loop_inv h6
      have hw1 := hw.rounds hr
      rcases hl' with ⟨rfl, _⟩ | ⟨x, h7, rfl⟩ | ⟨b, t7, t8, w7, rfl, h7, h8⟩
      · have := Ready.loop (fetchTail q) (hw1.ready ha (.nil _)) h2
        omega
      · have cs' := h7.cost (ok := anyResp) (fun _ _ => trivial) (fetchBody_sleeps _ s1)
        rcases exec_bind_inv h2 with ⟨x', h9, _⟩ | ⟨t9, t10, w9, o, h9, h10, rfl⟩
        · have c2 := (h9.cost (ok := anyResp) (fun _ _ => trivial) cs'.2).1
          omega
        · have c2 := (h9.cost (ok := anyResp) (fun _ _ => trivial) cs'.2).1
          rw [own_append, cost_append]
          cases o with
          | inl s2 =>
            have c3 := Ready.loop (fetchTail q) ((hw1.body (h7.trans h9)).ready ha h9.steps) h10
            omega
          | inr b =>
            rw [own_of_ret h10 (fetchTail q b)]
            simp; omega
      · have hp1 : p1 = .panic ∨ ∃ v, p1 = .ret v := by
          dsimp only at h8
          generalize fetchRespond q.topics b = rs at h8
          cases rs with
          | none => exact .inl (exec_panic_inv h8).1
          | some rs => exact .inr ⟨_, (exec_ret_inv h8).1⟩
        rw [own_of_ret h2 hp1]
        simp

/-- The last round of the loop does not sleep. -/
theorem fetchBody_last_sleeps {ex : Int} {st : FetchSt} {r : List FetchData} {w w' : World} {tr : List Ev}
    (h : Exec w (fetchBody ex st) tr w' (.ret (.inr r))) : cost sleepCost (own tr) = 0 := by
  have hc := fetchPass_cost (c := sleepCost) (ok := anyResp) (n := 0) (fun _ _ _ => Nat.le_refl _) st.fds
  obtain ⟨t1, t2, w1, ⟨fds, m⟩, h1, h2, rfl⟩ := exec_bind_ret h
  have c1 := (h1.cost (ok := anyResp) (fun _ _ => trivial) hc).1
  have key : cost sleepCost (own t2) = 0 := by
    dsimp only at h2
    cases m with
    | true =>
      rw [if_pos rfl] at h2
      rw [own_envSteps (exec_ret_inv h2).2]; rfl
    | false =>
      rw [if_neg (by decide)] at h2
      cases hh : (st.hasOne || false) with
      | true =>
        rw [hh, if_pos rfl] at h2
        rw [own_envSteps (exec_ret_inv h2).2]; rfl
      | false =>
        rw [hh, if_neg (by decide)] at h2
        obtain ⟨t3, w3, r3, w4, t4, h3, s3, h4, rfl⟩ := exec_act_ret h2
        have e : own (t3 ++ ⟨true, .now, r3⟩ :: t4) = ⟨.now, r3⟩ :: own t4 := by rw [own_append, own_envSteps h3]; rfl
        rw [e, cost_cons]
        split at h4
        · rw [own_envSteps (exec_ret_inv h4).2]; rfl
        · obtain ⟨t5, w5, r5, w6, t6, h5, s5, h6, rfl⟩ := exec_act_ret h4
          have e : own (t5 ++ ⟨true, .isDone, r5⟩ :: t6) = ⟨.isDone, r5⟩ :: own t6 := by rw [own_append, own_envSteps h5]; rfl
          rw [e, cost_cons]
          split at h6
          · rw [own_envSteps (exec_ret_inv h6).2]; rfl
          · obtain ⟨t7, w7, r7, w8, t8, h7, s7, h8, rfl⟩ := exec_act_ret h6
            cases (exec_ret_inv h8).1
  rw [own_append, cost_append]
  omega

/-- What Fetch has collected for a partition when it has slept after the moment `wm`. -/
theorem fetch_ret_after {q : FetchRequest} {resp : FetchResponse} {w wm w' : World} {ta tb : List Ev} (h : Exec w (fetch q) (ta ++ tb) w' (.ret resp))
    (ha : Steps w ta wm) (hs : 0 < cost sleepCost (own tb)) :
    ∃ fds, fetchRespond q.topics fds = some resp.responses ∧ List.Forall₂ (fun (src : Bytes × FetchPartition) (fd : FetchData) =>
      w.hasPartition src.1 src.2.partition → 0 ≤ src.2.fetchOffset.toInt ∧ ∃ recs, available wm src <+: recs ∧ recs <+: available w' src ∧
        fd.ms.msgs = recs.mapIdx (fun i r => MessageV1.ofRecord (src.2.fetchOffset + BitVec.ofNat 64 i) r)) q.named fds := by
  generalize e0 : ta ++ tb = tr at h
  obtain ⟨t1, t2, w1, fds, h1, h2, rfl⟩ := exec_bind_ret h
  obtain ⟨t3, w3, r3, w4, t4, h3, s3, h4, rfl⟩ := exec_act_ret h2
  obtain ⟨n, t5, w5, st, t6, fds', w6, t7, h5, h6, h7, rfl⟩ := exec_loop_ret h4
  have c6 := fetchBody_last_sleeps h6
  have c7 : own t7 = [] := own_of_ret h7 (fetchTail q fds')
  have hpre : Steps w (t1 ++ (t3 ++ ⟨true, .now, r3⟩ :: t5)) w5 := h1.steps.append (h3.1.append (.cons ⟨true, .now, r3⟩ s3 h5.steps))
  -- the last round comes after the moment
  obtain ⟨tc, etb, epre⟩ : ∃ tc, tb = tc ++ (t6 ++ t7) ∧ t1 ++ (t3 ++ ⟨true, .now, r3⟩ :: t5) = ta ++ tc := by
    have e1 : ta ++ tb = (t1 ++ (t3 ++ ⟨true, .now, r3⟩ :: t5)) ++ (t6 ++ t7) := by rw [e0]; simp
    rcases List.append_eq_append_iff.1 e1 with ⟨x, e2, e3⟩ | ⟨x, e2, e3⟩
    · exact ⟨x, e3, e2⟩
    · have : cost sleepCost (own (t6 ++ t7)) = cost sleepCost (own (x ++ tb)) := by rw [e3]
      rw [own_append, own_append, cost_append, cost_append, c6, c7, cost_nil] at this
      omega
  obtain ⟨t8, w8, fds2, m, t9, hp, hs1, hs2, rfl, rfl, rfl⟩ := fetchBody_ret h6
  obtain ⟨rfl, hq⟩ := hp.quiet
  have i1 := fetchRounds_inv h5 ((fetchSetup_ret h1).imp fun _ _ hi => hi.steps (h3.1.append (.cons ⟨true, .now, r3⟩ s3 (.nil _))))
  cases hf : fetchRespond q.topics st.fds with
  | none => rw [hf] at h7; obtain ⟨e, _⟩ := exec_panic_inv h7; cases e
  | some rs =>
    rw [hf] at h7
    obtain ⟨e, h9⟩ := exec_ret_inv h7
    cases e
    refine ⟨st.fds, hf, ?_⟩
    have key : ∀ {srcs : List (Bytes × FetchPartition)} {l : List FetchData}, (∀ fd ∈ l, fd ∈ st.fds) →
        List.Forall₂ (FdInv (Missing w t1 w1) w5) srcs l →
        List.Forall₂ (fun (src : Bytes × FetchPartition) (fd : FetchData) =>
          w.hasPartition src.1 src.2.partition → 0 ≤ src.2.fetchOffset.toInt ∧ ∃ recs, available wm src <+: recs ∧ recs <+: available w' src ∧
            fd.ms.msgs = recs.mapIdx (fun i r => MessageV1.ofRecord (src.2.fetchOffset + BitVec.ofNat 64 i) r)) srcs l := by
      intro srcs l hmem hl
      induction hl with
      | nil => exact .nil
      | @cons src fd _ _ hab _ ih =>
        refine .cons ?_ (ih fun fd hfd => hmem fd (List.mem_cons_of_mem _ hfd))
        intro hpart
        obtain ⟨_, j2, recs, j3, j4, _, j6, _⟩ := hab
        rcases j2 with ⟨_, _, _, wn, rfl, sn, _, hn⟩ | ⟨j2, _⟩
        · exact absurd (sn.hasPartition hpart) hn
        obtain ⟨tx, ty, wx, rfl, sx, sy, _, hlen⟩ := hq fd (hmem fd (List.mem_cons_self ..)) _ _ j2
        have hnn : 0 ≤ src.2.fetchOffset.toInt := by
          rcases j3 with j3 | ⟨j3, _⟩
          · subst j3; simp at j4; omega
          · exact j3
        have hlogx : wx.log src.1 src.2.partition = wm.log src.1 src.2.partition ++ Spec.posts (effects (tc ++ tx)) src.1 src.2.partition := by
          have g1 := (hpre.append sx).log src.1 src.2.partition
          rw [epre, List.append_assoc, effects_append, Spec.posts_append, ← List.append_assoc, ← ha.log] at g1
          exact g1
        refine ⟨hnn, recs, ?_, ?_, j6⟩
        · have h1 : recs <+: available wx src := by
            rcases j3 with j3 | ⟨_, _, _, j3⟩
            · subst j3; exact List.nil_prefix
            · unfold available; rw [sx.log]; exact drop_append_prefix j3
          have h2 : recs = available wx src := by
            refine List.IsPrefix.eq_of_length_le h1 ?_
            unfold available; rw [List.length_drop]; omega
          rw [h2]
          unfold available
          rw [hlogx]
          exact drop_append_prefix (List.prefix_refl _)
        · rcases j3 with j3 | ⟨_, _, _, j3⟩
          · subst j3; exact List.nil_prefix
          · unfold available
            rw [((sx.append sy).append (hs2.append h9.1)).log]
            exact drop_append_prefix j3
    exact key (fun _ h => h) i1

/-- **C122**, the answer: when Fetch sleeps after the moment `wm` and then answers, the answer contains every record that was there at this moment, at or after
the requested offset, in a partition that was there when Fetch began; it is labelled with its offset. One partition per topic, as in C35.
Missing for the full statement: several partitions of one topic (`C59_false`), and partitions that are created after Fetch has looked for them, for which it
is false, `C122_false`. -/
theorem C122_answer_partial {q : FetchRequest} {resp : FetchResponse} {w wm w' : World} {ta tb : List Ev} {p1 : Prog FetchResponse}
    {ft : FetchTopic} {par : FetchPartition} (h1 : Exec w (fetch q) ta wm p1) (h2 : Exec wm p1 tb w' (.ret resp)) (hs : 0 < sleeps (own tb))
    (single : ∀ t ∈ q.topics, ∃ p, t.partitions = [p]) (hm : ft ∈ q.topics) (hpar : par ∈ ft.partitions) (hp : w.hasPartition ft.topic par.partition)
    {i : Nat} {r : Record} (hi : par.fetchOffset.toInt ≤ i) (hr : (wm.log ft.topic par.partition)[i]? = some r) :
    ∃ rt ∈ resp.responses, rt.topic = ft.topic ∧ ∃ rp ∈ rt.partitions, rp.partitionIndex = par.partition ∧ rp.errorCode = 0 ∧
      MessageV1.ofRecord (BitVec.ofNat 64 i) r ∈ rp.records.msgs := by
  rw [sleeps_eq] at hs
  obtain ⟨fds, hf, hl⟩ := fetch_ret_after (h1.trans h2) h1.steps hs
  have h7 := fetchRespond_eq hf
  obtain ⟨j, hj⟩ := List.getElem?_of_mem hm
  obtain ⟨p, e1, e2⟩ := named_single single hj
  rw [e1, List.mem_singleton] at hpar
  subst hpar
  obtain ⟨rt, hrt, fd, hfd, e3, e4⟩ := forall₂_get h7.flip (show q.topics.zipIdx[j]? = some (ft, j) by simp [hj])
  obtain ⟨src, hsrc, hx⟩ := forall₂_get hl hfd
  have e5 : q.named[j]? = some (ft.topic, par) := e2
  rw [e5] at hsrc; cases hsrc
  obtain ⟨hnn, recs, k1, _, k3⟩ := hx hp
  replace hnn : 0 ≤ par.fetchOffset.toInt := hnn
  refine ⟨rt, List.mem_of_getElem? hrt, e3, _, by rw [e4, e1]; exact List.mem_singleton.2 rfl, rfl, rfl, ?_⟩
  show _ ∈ fd.ms.msgs
  rw [k3, List.mem_mapIdx]
  obtain ⟨d, hd⟩ : ∃ d : Nat, i = par.fetchOffset.toInt.toNat + d := ⟨i - par.fetchOffset.toInt.toNat, by omega⟩
  have hget : recs[d]? = some r := by
    obtain ⟨t, rfl⟩ := k1
    have : (available wm (ft.topic, par))[d]? = some r := by
      unfold available; rw [List.getElem?_drop, ← hd]; exact hr
    rw [List.getElem?_append_left (List.getElem?_eq_some_iff.1 this).1]
    exact this
  obtain ⟨hlt, hg⟩ := List.getElem?_eq_some_iff.1 hget
  refine ⟨d, hlt, ?_⟩
  rw [hg]
  congr 1
  have e6 : par.fetchOffset = BitVec.ofNat 64 par.fetchOffset.toInt.toNat := by
    apply BitVec.eq_of_toNat_eq
    rw [BitVec.toNat_ofNat]
    have h1 : par.fetchOffset.toNat < 2 ^ 64 := par.fetchOffset.isLt
    have h2 := BitVec.toInt_eq_toNat_cond par.fetchOffset
    split at h2 <;> omega
  rw [hd, BitVec.ofNat_add, ← e6]

/-! ### Among all goroutines of the mock -/

/-- A run may be cut anywhere. -/
theorem Exec.cut {α : Type} {w w' : World} {p p' : Prog α} {ta tb : List Ev} (h : Exec w p (ta ++ tb) w' p') :
    ∃ wm x, Exec w p ta wm x ∧ Exec wm x tb w' p' := by
  generalize e : ta ++ tb = tr at h
  induction h generalizing ta with
  | refl w p =>
    obtain ⟨rfl, rfl⟩ := List.append_eq_nil_iff.1 e
    exact ⟨w, p, .refl _ _, .refl _ _⟩
  | @env w w1 w2 p p' tr a r hst hx ih =>
    cases ta with
    | nil =>
      have e : tb = _ := e
      subst e
      exact ⟨w, p, .refl _ _, .env a r hst hx⟩
    | cons x ta =>
      cases e
      obtain ⟨wm, x, h1, h2⟩ := ih rfl
      exact ⟨wm, x, .env a r hst h1, h2⟩
  | @mine w w1 w2 p' tr a k r hst hx ih =>
    cases ta with
    | nil =>
      have e : tb = _ := e
      subst e
      exact ⟨w, _, .refl _ _, .mine a k r hst hx⟩
    | cons x ta =>
      cases e
      obtain ⟨wm, x, h1, h2⟩ := ih rfl
      exact ⟨wm, x, .mine a k r hst h1, h2⟩
  | unroll hx ih =>
    obtain ⟨wm, x, h1, h2⟩ := ih e
    exact ⟨wm, x, .unroll h1, h2⟩

/-- The run of a request, cut at a moment of the run of the mock. -/
theorem Serves.cut {sv : Server} {clock : Int} {c : Nat} {m : Bytes} {t1 ta tb : List SEv} {s1 sm s2 : Sys} (h : Serves sv clock c m t1 s1 (ta ++ tb) s2)
    (ha : Sys.Run s1 ta sm) (hb : Sys.Run sm tb s2) :
    ∃ (ctx : Nat) (ea eb : List Ev) (res : DRes), Exec (s1.view ctx) (dispatcher sv ⟨m⟩ m.length) (ea ++ eb) (s2.view ctx) (.ret res) ∧
      Steps (s1.view ctx) ea (sm.view ctx) ∧ own ea = actsOf c ta ∧ own eb = actsOf c tb := by
  obtain ⟨s0, h0, hb0⟩ := h.begins
  obtain ⟨s3, he⟩ := h.ends
  cases hb0 with
  | @conn _ k _ f _ w hc hp hact =>
  obtain ⟨w0, w0', e1, e2, p2, h2, _⟩ := h0.connection_at (.nil _) hc hp
  obtain ⟨G, hG, hf⟩ := handle_reqBegin h2
  have hlt : c < s0.conns.length := by
    rcases Nat.lt_or_ge c s0.conns.length with h | h
    · exact h
    · rw [List.getElem?_eq_none h] at hc; cases hc
  have hk1 : ((s0.setView k.ctx w).setConn c { k with pc := .body (f ()) }).conns[c]? = some { k with pc := .body (f ()) } := by
    simp [Sys.setConn, Sys.setView, hlt]
  obtain ⟨km, hkm, _, _, hctxm, h3⟩ := ha.project hk1 rfl
  cases he with
  | @conn _ k3 _ f3 _ w3 hc3 hp3 ha3 =>
  rcases h3 with ⟨pm, ea, hpm, hxa, hoa, _⟩ | ⟨h4, _⟩
  · obtain ⟨k2, hk2, _, _, hctx, h3⟩ := hb.project hkm hpm
    rw [hk2] at hc3; cases hc3
    rcases h3 with ⟨p', eb, hp', hxb, hob, _⟩ | ⟨h4, _⟩
    · rw [hp3] at hp'; cases hp'
      rw [hctxm] at hxb
      have hx := hxa.trans hxb
      refine ⟨k.ctx, ea, eb, ?_⟩
      have hno : (⟨.reqEnd, ()⟩ : REv) ∉ own (ea ++ eb) := by
        rw [own_append, hoa, hob]
        intro hm
        have hm' : (⟨.reqEnd, ()⟩ : REv) ∈ actsOf c (ta ++ tb) := by
          unfold actsOf at hm ⊢
          rw [List.filterMap_append]; exact hm
        unfold actsOf at hm'
        obtain ⟨e, he, h5⟩ := List.mem_filterMap.1 hm'
        cases e with
        | conn c' a r =>
          simp only at h5
          split at h5
          · next e => cases h5; subst e; exact h.once he
          · cases h5
        | _ => cases h5
      rw [hf] at hx
      rcases exec_bind_inv hx with ⟨x, h5, h6⟩ | ⟨tx, ty, wm, res, h5, h6, hxy⟩
      · cases x with
        | ret res => exact ⟨res, h5, hxa.steps, hoa, hob⟩
        | panic => cases h6
        | act a g =>
          simp only [Prog.bind_act] at h6
          cases h6
          exact ((h5.only (dispatcher_onlyInner sv _ _)).1.1).elim
        | loop => cases h6
      · obtain ⟨g, hg⟩ := hG res
        rw [hg] at h6
        rcases exec_act_inv h6 with ⟨_, h7⟩ | ⟨t3, r, w2, w3, t4, _, _, _, h7⟩
        · refine ⟨res, ?_, hxa.steps, hoa, hob⟩
          rw [hxy]
          exact h5.trans (h7.exec _)
        · exact absurd (mem_own.2 (by rw [hxy, h7]; simp)) hno
    · exact absurd hp3 (h4 _)
  · -- a connection that has left its loop does not come back
    exfalso
    have key : ∀ {s s' : Sys} {es : List SEv}, Sys.Run s es s' → ∀ {k1 : ConnG}, s.conns[c]? = some k1 → (∀ p, k1.pc ≠ .body p) →
        ∃ k', s'.conns[c]? = some k' ∧ ∀ p, k'.pc ≠ .body p := by
      intro s s' es hr
      induction hr with
      | nil => intro k1 h1 h2; exact ⟨k1, h1, h2⟩
      | cons h _ ih =>
        intro k1 h1 h2
        obtain ⟨_, k2, a2, _, _, _, a6⟩ := step_left h h1 h2
        exact ih a2 a6
    obtain ⟨k', a1, a2⟩ := key hb hkm h4
    rw [a1] at hc3; cases hc3
    exact a2 _ hp3

/-- **C122** among all goroutines of the mock: connection `k` serves a Fetch, and at some moment meanwhile, in state `sm`, a partition that the Fetch names and
that was there when the request was taken up holds a record for it. From then on the Fetch sleeps at most once. Missing for the full statement: as in
`C122_wakes_partial`. -/
theorem C122_exchange_partial {sv : Server} {clock : Int} {k : Nat} {q : FetchRequest} {c : I32} {t1 ta tb : List SEv} {s1 sm s2 : Sys} {src : Bytes × FetchPartition}
    (h : Exchange sv clock k (.fetch q) c t1 s1 (ta ++ tb) s2) (ha : Sys.Run s1 ta sm) (hb : Sys.Run sm tb s2)
    (hm : src ∈ q.named) (hp : (s1.view 0).hasPartition src.1 src.2.partition) (hav : available (sm.view 0) src ≠ []) : sleeps (actsOf k tb) ≤ 1 := by
  obtain ⟨client, m, ⟨hacc, hh⟩, hs⟩ := h.serves
  have hc := accepted_client hacc
  obtain ⟨ctx, ea, eb, res, h1, hst, h2, h3⟩ := Serves.cut hs ha hb
  have he := dispatcher_accepted sv hacc ⟨hh, h.body⟩ [] m.length
  rw [List.append_nil, List.append_nil] at he
  rw [he, accepted_length hacc] at h1
  have hall : AllSent (own (ea ++ eb)) := by
    rw [own_append, h2, h3]
    have := h.sentAll
    unfold actsOf at this ⊢
    rw [List.filterMap_append] at this
    exact this
  rw [← h3]
  rcases request_run h.wellFormed hc hh h.body h1 hall trivial with ⟨h4, _⟩ | ⟨x1, x2, w1, e, _, ⟨h4, h5, _⟩ | ⟨payload, h4, _, _, h5⟩⟩
  · cases h4
  · obtain ⟨_, _, _, _, _, h7, _⟩ := exec_bind_ret (show Exec _ ((fetch q).bind fun x => .ret (some (fetchResponse x))) _ _ _ from h4)
    cases (exec_ret_inv h7).1
  · obtain ⟨y1, y2, wy, resp, h6, h7, e2⟩ := exec_bind_ret (show Exec _ ((fetch q).bind fun x => .ret (some (fetchResponse x))) _ _ _ from h4)
    have o2 : own y2 = [] := own_envSteps (exec_ret_inv h7).2
    have c2 : cost sleepCost (own (y2 ++ x2)) = 0 := by rw [own_append, o2, h5]; rfl
    have e3 : ea ++ eb = y1 ++ (y2 ++ x2) := by rw [e, e2, List.append_assoc]
    rcases List.append_eq_append_iff.1 e3 with ⟨z, rfl, e5⟩ | ⟨z, e4, e5⟩
    · obtain ⟨wm, x, g1, g2⟩ := Exec.cut h6
      have hav' : available wm src ≠ [] := by
        have : wm.log src.1 src.2.partition = (sm.view 0).log src.1 src.2.partition := by
          rw [g1.steps.log]; exact (hst.log src.1 src.2.partition).symm
        unfold available at hav ⊢
        rw [this]; exact hav
      have := C122_wakes_partial g1 g2 hm hp hav'
      rw [sleeps_eq] at this ⊢
      rw [e5, own_append, cost_append, c2]
      omega
    · rw [sleeps_eq]
      rw [e5, own_append, cost_append] at c2
      omega

/-! ### Concrete cases -/

/-- A Fetch with a wait time of 23 days at the end of a partition. -/
def wakeFetch : FetchRequest := ⟨-1, 2000000000, 1, [⟨[116], [⟨0, 2, 1000⟩]⟩]⟩

/-- Example for C122: the partition is there and the Fetch waits. A record is posted when Fetch has read the clock and is about to look whether the mock is to
finish; Fetch sleeps once more and answers with the record. -/
example : ∃ ta wm p1 tb w' resp, Exec exFetchWorld (fetch wakeFetch) ta wm p1 ∧ Exec wm p1 tb w' (.ret resp) ∧ ([116], ⟨0, 2, 1000⟩) ∈ wakeFetch.named ∧
    exFetchWorld.hasPartition [116] 0 ∧ available wm ([116], ⟨0, 2, 1000⟩) ≠ [] ∧ sleeps (own ta) = 1 ∧ sleeps (own tb) = 1 ∧
    (wm.log [116] 0)[2]? = some ⟨0, 77, none, none, []⟩ ∧
    resp.responses.map (fun rt => rt.partitions.map fun rp => rp.records.msgs.map (·.offset)) = [[[2]]] :=
  ⟨_, _, _, _, _, ⟨0, [⟨[116], [⟨0, 0, 3, ⟨[MessageV1.ofRecord 2 ⟨0, 77, none, none, []⟩], 3, 34⟩⟩]⟩]⟩,
    Prog.run_sound (go 11 ++ [Sched.env (.post [116] 0 ⟨0, 77, none, none, []⟩)]) _ _, Prog.run_ret (sch := go 16) rfl,
    by decide, rfl, by decide, by decide, by decide, by decide, by decide⟩

/-- C122 is false of a partition that is created while Fetch waits: here the topic is created and a record is posted after the first sleep. Fetch sleeps five more
times, until its time is up, and its answer is empty. -/
theorem C122_false : ∃ ta wm p1 tb w', Exec exFetchWorld (fetch ⟨-1, 100, 1, [⟨[120], [⟨0, 0, 1000⟩]⟩]⟩) ta wm p1 ∧
    available wm ([120], ⟨0, 0, 1000⟩) = [⟨0, 77, none, none, []⟩] ∧
    Exec wm p1 tb w' (.ret ⟨0, [⟨[120], [⟨0, 0, 0, ⟨[], 0, 0⟩⟩]⟩]⟩) ∧ sleeps (own tb) = 5 ∧ wm.cancelled = false :=
  ⟨_, _, _, _, _, Prog.run_sound (go 6 ++ [.env (.createTopic [120]), .env (.createPartition [120] 0), .env (.post [120] 0 ⟨0, 77, none, none, []⟩)]) _ _,
    by decide, Prog.run_ret (sch := go 30) rfl, by decide, by decide⟩

/-- Two schedules, one after the other. -/
theorem picks_append {pa pb : List Pick} {s s1 s2 : Sys} {ea eb : List SEv} (ha : Sys.play pa s = some (ea, s1)) (hb : Sys.play pb s1 = some (eb, s2)) :
    Sys.play (pa ++ pb) s = some (ea ++ eb, s2) := by
  induction pa generalizing s ea with
  | nil => cases ha; exact hb
  | cons x pa ih =>
    rw [List.cons_append, Sys.play]
    rw [Sys.play] at ha
    cases hx : s.pick x with
    | none => rw [hx] at ha; cases ha
    | some y =>
      obtain ⟨e, sy⟩ := y
      rw [hx] at ha
      simp only at ha ⊢
      cases hy : Sys.play pa sy with
      | none => rw [hy] at ha; cases ha
      | some z =>
        obtain ⟨ez, sz⟩ := z
        rw [hy] at ha
        cases ha
        rw [ih hy]
        rfl

/-- Two schedules that can be played. -/
theorem picks_eq {pa pb : List Pick} {s : Sys} (ha : (Sys.play pa s).isSome) (hb : (Sys.play pb (stateAfter pa s)).isSome) :
    eventsOf (pa ++ pb) s = eventsOf pa s ++ eventsOf pb (stateAfter pa s) ∧ stateAfter (pa ++ pb) s = stateAfter pb (stateAfter pa s) := by
  obtain ⟨⟨ea, s1⟩, e1⟩ := Option.isSome_iff_exists.1 ha
  have h1 : stateAfter pa s = s1 := by unfold stateAfter; rw [e1]; rfl
  have h2 : eventsOf pa s = ea := by unfold eventsOf; rw [e1]; rfl
  rw [h1] at hb
  obtain ⟨⟨eb, s2⟩, e2⟩ := Option.isSome_iff_exists.1 hb
  have h3 : stateAfter pb s1 = s2 := by unfold stateAfter; rw [e2]; rfl
  have h4 : eventsOf pb s1 = eb := by unfold eventsOf; rw [e2]; rfl
  have hab := picks_append e1 e2
  rw [h1, h2, h3, h4]
  unfold eventsOf stateAfter
  rw [hab]
  exact ⟨rfl, rfl⟩

/-- A Fetch at the end of the partition, with a wait time of 23 days. -/
def askLater : Request := .fetch ⟨-1, 2000000000, 1, [⟨[116], [⟨0, 1, 1000⟩]⟩]⟩

theorem askLater_wf : askLater.WellFormed := by
  unfold askLater Request.WellFormed ShortList ShortStr
  decide

/-- The Fetch has slept once and has looked for records once more; then SimplePost is called and comes to its end. -/
def untilPosted : List Pick := List.replicate 10 (.conn 0) ++ .api 0 posting.call :: caller 0 posting.call 4
/-- The Fetch goes on. -/
def sincePosted : List Pick := List.replicate 10 (.conn 0)

set_option synthInstance.maxSize 1000 in
set_option maxRecDepth 1000000 in
/-- Example for `C122_exchange_partial`: the Fetch is served in this way; it sleeps once more, and the client reads the record. -/
example : ∃ t1 ta tb s1 sm s2, Exchange ⟨9092, []⟩ 0 0 askLater 7 t1 s1 (ta ++ tb) s2 ∧ Sys.Run s1 ta sm ∧ Sys.Run sm tb s2 ∧
    (s1.view 0).hasPartition [116] 0 ∧ available (s1.view 0) ([116], ⟨0, 1, 1000⟩) = [] ∧ available (sm.view 0) ([116], ⟨0, 1, 1000⟩) ≠ [] ∧ sleeps (actsOf 0 ta) = 1 ∧
    sleeps (actsOf 0 tb) = 1 ∧ ((Client.response Client.fetch (sent (actsOf 0 (ta ++ tb)))).map fun x =>
      x.1.2.2.map fun t => t.2.map fun p => (p.partition, p.highWatermark, p.messages.map (·.value))) = some [[(0, 2, [some [3]])]] := by
  obtain ⟨t0, h⟩ := oneRecord_run
  have hx := exchange_of_picks h 0 (untilPosted ++ sincePosted) askLater 7 askLater_wf (by decide +kernel)
  obtain ⟨e1, e2⟩ := picks_eq (pa := untilPosted) (pb := sincePosted) (s := taken 0 askLater 7 oneRecord) (by decide +kernel) (by decide +kernel)
  rw [e1, e2] at hx
  refine ⟨_, _, _, _, _, _, hx, stateAfter_run _ _, stateAfter_run _ _, (by with_unfolding_all rfl), ?_, ?_, ?_, ?_, ?_⟩ <;> decide +kernel

end KM.Props
