import Verif.Props.FetchLive
/-
Property C67: how long Fetch waits for records.
-/
namespace KM.Props
open KM

/-! ### C67 -/

/-- The last round of the polling loop: a record has been seen, or the time is up, or the lane is cancelled. -/
theorem fetchBody_last {ex : Int} {st : FetchSt} {r : List FetchData} {w w' : World} {tr : List Ev}
    (h : Exec w (fetchBody ex st) tr w' (.ret (.inr r))) : st.hasOne = true ∨ ex < w'.clock ∨ w'.cancelled = true := by
  obtain ⟨t1, t2, w1, ⟨fds, m⟩, h1, h2, rfl⟩ := exec_bind_ret h
  dsimp only at h2
  cases m with
  | true =>
    rw [if_pos rfl] at h2
    obtain ⟨e, _⟩ := exec_ret_inv h2
    cases e
  | false =>
    rw [if_neg (by decide)] at h2
    cases hh : st.hasOne with
    | true => exact .inl rfl
    | false =>
      right
      rw [hh, if_neg (by decide)] at h2
      obtain ⟨t3, w3, r3, w4, t4, h3, s3, h4, rfl⟩ := exec_act_ret h2
      obtain ⟨rfl, hr3⟩ := s3
      have hr3' : (r3 : Int) = w4.clock := hr3
      by_cases hex : (r3 : Int) > ex
      · rw [if_pos hex] at h4
        obtain ⟨_, h5⟩ := exec_ret_inv h4
        have := h5.1.clock
        have hex' : ex < w4.clock := by rw [← hr3']; exact hex
        left; omega
      · rw [if_neg hex] at h4
        obtain ⟨t5, w5, r5, w6, t6, h5, s5, h6, rfl⟩ := exec_act_ret h4
        obtain ⟨rfl, hr5⟩ := s5
        cases r5 with
        | true =>
          obtain ⟨_, h7⟩ := exec_ret_inv h6
          exact .inr (h7.1.cancelled hr5.symm)
        | false =>
          obtain ⟨t7, w7, r7, w8, t8, h7, s7, h8, rfl⟩ := exec_act_ret h6
          obtain ⟨e, _⟩ := exec_ret_inv h8
          cases e

/-- A pass that has found a record. -/
theorem _root_.KM.PassResult.found {N : Bytes × FetchPartition → Prop} {w w' : World} {tr : List Ev} {fds fds' : List FetchData} {m : Bool}
    {srcs : List (Bytes × FetchPartition)} (h : PassResult w tr w' fds fds' m) (hi : List.Forall₂ (FdInv N w) srcs fds) (ht : m = true) :
    ∃ z ∈ srcs.zip fds', z.2.kp = some (z.1.1, z.1.2.partition) ∧ available w' z.1 ≠ [] := by
  induction h generalizing srcs with
  | nil => cases ht
  | skip _ _ ih | miss _ _ _ ih =>
    cases hi with
    | cons _ h2 =>
      obtain ⟨s, hs, h⟩ := ih h2 ht
      exact ⟨s, List.mem_cons_of_mem _ hs, h⟩
  | @hit fd l l' m t p rec h h0 hm _ ih =>
    cases hi with
    | @cons src _ srcs _ h1 h2 =>
      obtain ⟨ta, tb, wm, rfl, sa, sb, hrec⟩ := hm
      obtain ⟨_, hk, recs, h3, h4, _⟩ := h1
      rcases hk with ⟨hk, _⟩ | ⟨hk, _⟩
      · rw [hk] at h; cases h
      · rw [hk] at h; cases h
        refine ⟨(src, fd.advance rec), List.mem_cons_self .., ?_, ?_⟩
        · unfold FetchData.advance; split <;> exact hk
        have hlt := (List.getElem?_eq_some_iff.1 hrec).1
        have hlog := sb.log src.1 src.2.partition
        unfold available
        rw [hlog]
        intro hnil
        have := congrArg List.length hnil
        simp only [List.length_drop, List.length_append, List.length_nil] at this
        rcases h3 with rfl | ⟨h3, _⟩
        · simp only [List.length_nil] at h4; omega
        · omega

/-- A pass keeps the partitions in their places. -/
theorem _root_.KM.PassResult.zip {w w' : World} {tr : List Ev} {fds fds' : List FetchData} {m : Bool} {srcs : List (Bytes × FetchPartition)}
    (h : PassResult w tr w' fds fds' m) {z : (Bytes × FetchPartition) × FetchData} (hz : z ∈ srcs.zip fds) :
    ∃ fd', (z.1, fd') ∈ srcs.zip fds' ∧ fd'.kp = z.2.kp := by
  induction h generalizing srcs with
  | nil => simp at hz
  | @skip fd l l' m _ _ ih | @miss fd l l' m _ _ _ _ _ ih =>
    cases srcs with
    | nil => cases hz
    | cons src srcs =>
      rcases List.mem_cons.1 hz with rfl | hz
      · exact ⟨_, List.mem_cons_self .., rfl⟩
      · obtain ⟨fd', h1, h2⟩ := ih hz
        exact ⟨fd', List.mem_cons_of_mem _ h1, h2⟩
  | @hit fd l l' m t p rec h h0 hm _ ih =>
    cases srcs with
    | nil => cases hz
    | cons src srcs =>
      rcases List.mem_cons.1 hz with rfl | hz
      · exact ⟨_, List.mem_cons_self .., by unfold FetchData.advance; split <;> rfl⟩
      · obtain ⟨fd', h1, h2⟩ := ih hz
        exact ⟨fd', List.mem_cons_of_mem _ h1, h2⟩

/-- What Fetch has collected when it answers early: for some partition at least one message. -/
theorem fetch_early {q : FetchRequest} {resp : FetchResponse} {w w' : World} {tr : List Ev} (h : Exec w (fetch q) tr w' (.ret resp))
    (early : w'.clock ≤ w.clock + q.maxWaitMs.toInt * 1000000) (running : w'.cancelled = false) :
    ∃ fds, fds.length = q.named.length ∧ fetchRespond q.topics fds = some resp.responses ∧
      (∃ fd ∈ fds, fd.ms.msgs ≠ []) ∧ ∃ src ∈ q.named, available w' src ≠ [] := by
  obtain ⟨t1, t2, w1, fds, h1, h2, rfl⟩ := exec_bind_ret h
  obtain ⟨t3, w3, r3, w4, t4, h3, s3, h4, rfl⟩ := exec_act_ret h2
  obtain ⟨n, t5, w5, st, t6, fds', w6, t7, h5, h6, h7, rfl⟩ := exec_loop_ret h4
  have i0 := (fetchSetup_ret h1).imp fun _ _ hi => hi.steps (h3.1.append (.cons ⟨true, .now, r3⟩ s3 (.nil _)))
  obtain ⟨rfl, hr3⟩ := s3
  have hr3' : (r3 : Int) = w4.clock := hr3
  have c1 := h1.steps.clock
  have c3 := h3.1.clock
  have c7 := h7.steps.clock
  have mono : ∀ {u u' : World} {t : List Ev} {src : Bytes × FetchPartition}, Steps u t u' → available u src ≠ [] → available u' src ≠ [] := by
    intro u u' t src hs hne hnil
    have hlog := hs.log src.1 src.2.partition
    unfold available at hnil hne
    rw [hlog, List.drop_append] at hnil
    exact hne (List.append_eq_nil_iff.1 hnil).1
  rcases fetchBody_last h6 with h8 | h8 | h8
  · have key := Rounds.inv (body := fetchBody (r3 + q.maxWaitMs.toInt * 1000000))
      (I := fun w s => List.Forall₂ (FdInv (fun _ => True) w) q.named s.fds ∧
        (s.hasOne = true → ∃ z ∈ q.named.zip s.fds, z.2.kp = some (z.1.1, z.1.2.partition) ∧ available w z.1 ≠ [])) ?_ h5
      ⟨i0.imp fun _ _ hi => hi.mono fun _ => trivial, by intro h; cases h⟩
    · obtain ⟨⟨src, fd⟩, hz, hk, hne⟩ := key.2 h8
      obtain ⟨t8, w8, fds2, m, t9, hp, hs1, hs2, rfl, rfl, rfl⟩ := fetchBody_ret h6
      obtain ⟨rfl, hq⟩ := hp.quiet
      have hm := List.of_mem_zip hz
      cases hf : fetchRespond q.topics st.fds with
      | none => rw [hf] at h7; obtain ⟨e, _⟩ := exec_panic_inv h7; cases e
      | some rs =>
        rw [hf] at h7
        obtain ⟨e, h9⟩ := exec_ret_inv h7
        cases e
        refine ⟨st.fds, key.1.length_eq.symm, hf, ⟨fd, hm.2, ?_⟩, src, hm.1, mono (h6.steps.append h9.1) hne⟩
        obtain ⟨ta, tb, wm, rfl, sa, sb, _, hlen⟩ := hq fd hm.2 _ _ hk
        obtain ⟨_, _, recs, _, h4, _, h5, _⟩ := List.forall₂_zip key.1 hz
        have hne' := mono sa hne
        dsimp only at hne' hlen
        rw [h5]
        intro hnil
        have hr : recs = [] := by simpa using hnil
        subst hr
        refine hne' (List.drop_eq_nil_of_le ?_)
        simp only [List.length_nil] at h4
        omega
    · intro wa wb sa sb t hi hx
      obtain ⟨ta, wc, fds, m, tb, hp, hs1, hs2, _, e1, e2, _⟩ := fetchBody_ret hx
      refine ⟨by rw [e1]; exact (hp.inv hs1 hi.1).imp fun _ _ h => h.steps hs2, fun ht => ?_⟩
      rw [e2, Bool.or_eq_true] at ht
      rcases ht with ht | ht
      · obtain ⟨z, hz, hk, hne⟩ := hi.2 ht
        obtain ⟨fd', hz', hk'⟩ := hp.zip hz
        rw [e1]
        exact ⟨(z.1, fd'), hz', hk'.trans hk, mono hx.steps hne⟩
      · obtain ⟨z, hz, hk, hne⟩ := hp.found hi.1 ht
        rw [e1]
        exact ⟨z, hz, hk, mono hs2 hne⟩
  · have : w4.clock + q.maxWaitMs.toInt * 1000000 < w6.clock := by rw [← hr3']; exact h8
    omega
  · rw [h7.steps.cancelled h8] at running; cases running

/-- **C67**, data: a Fetch that is answered before its maximum wait time has passed, while the mock has not been told to finish, has something to deliver: in
some partition it names there is a record at or after the requested offset. -/
theorem C67_data {q : FetchRequest} {resp : FetchResponse} {w w' : World} {tr : List Ev} (h : Exec w (fetch q) tr w' (.ret resp))
    (early : w'.clock ≤ w.clock + q.maxWaitMs.toInt * 1000000) (running : w'.cancelled = false) :
    ∃ src ∈ q.named, available w' src ≠ [] :=
  let ⟨_, _, _, _, h⟩ := fetch_early h early running
  h

theorem fetchRespond_single {ts : List FetchTopic} {fds : List FetchData} {rs : List FetchRespTopic} (h : fetchRespond ts fds = some rs)
    (single : ∀ t ∈ ts, ∃ p, t.partitions = [p]) (hl : fds.length = ts.length) {fd : FetchData} (hm : fd ∈ fds) :
    ∃ rt ∈ rs, ∃ rp ∈ rt.partitions, rp.records = fd.ms := by
  induction ts generalizing fds rs with
  | nil =>
    cases fds with
    | nil => cases hm
    | cons => cases hl
  | cons t ts ih =>
    cases fds with
    | nil => cases hm
    | cons fd0 fds =>
      rw [fetchRespond] at h
      cases hr : fetchRespond ts fds with
      | none => rw [hr] at h; cases h
      | some rest =>
        rw [hr] at h
        cases h
        rcases List.mem_cons.1 hm with rfl | hm
        · obtain ⟨p, hp⟩ := single t (List.mem_cons_self ..)
          exact ⟨_, List.mem_cons_self .., _, by rw [hp]; exact List.mem_cons_self .., rfl⟩
        · obtain ⟨rt, h1, h2⟩ := ih hr (fun t ht => single t (List.mem_cons_of_mem _ ht)) (by simpa using hl) hm
          exact ⟨rt, List.mem_cons_of_mem _ h1, h2⟩

/-- **C67**, answers: with one partition per topic, an answer sent before the maximum wait time has passed, while the mock has not been told to finish,
contains a record; so an empty answer always comes after the maximum wait time. Missing for the full statement: several partitions of one topic, for which
it is false, `C67_false_empty`. -/
theorem C67_answer_partial {q : FetchRequest} {resp : FetchResponse} {w w' : World} {tr : List Ev} (h : Exec w (fetch q) tr w' (.ret resp))
    (single : ∀ t ∈ q.topics, ∃ p, t.partitions = [p])
    (early : w'.clock ≤ w.clock + q.maxWaitMs.toInt * 1000000) (running : w'.cancelled = false) :
    ∃ rt ∈ resp.responses, ∃ rp ∈ rt.partitions, rp.records.msgs ≠ [] := by
  obtain ⟨fds, hl, hr, ⟨fd, hm, hne⟩, _⟩ := fetch_early h early running
  have : q.named.length = q.topics.length := by
    unfold FetchRequest.named
    generalize q.topics = ts at single
    induction ts with
    | nil => rfl
    | cons t ts ih =>
      obtain ⟨p, hp⟩ := single t (List.mem_cons_self ..)
      have := ih fun t ht => single t (List.mem_cons_of_mem _ ht)
      simp [hp] at this ⊢
      omega
  obtain ⟨rt, h1, rp, h2, h3⟩ := fetchRespond_single hr single (hl.trans this) hm
  exact ⟨rt, h1, rp, h2, by rw [h3]; exact hne⟩

/-- **C67**, minimum: if MinBytes is at most the size of the smallest record, 34 bytes, a Fetch answered before its maximum wait time, while the mock has not
been told to finish, is answered when at least MinBytes bytes are there. Missing for the full statement: a larger MinBytes, for which it is false,
`C67_false_minimum`. -/
theorem C67_minimum_partial {q : FetchRequest} {resp : FetchResponse} {w w' : World} {tr : List Ev} (h : Exec w (fetch q) tr w' (.ret resp))
    (early : w'.clock ≤ w.clock + q.maxWaitMs.toInt * 1000000) (running : w'.cancelled = false) (hmin : q.minBytes.toInt ≤ 34) :
    q.minBytes.toInt ≤ ((q.named.map fun src => ((available w' src).map wireSize).sum).sum : Nat) := by
  obtain ⟨src, hm, hne⟩ := C67_data h early running
  obtain ⟨r, rs, he⟩ := List.exists_cons_of_ne_nil hne
  have h1 : 34 ≤ ((available w' src).map wireSize).sum := by
    rw [he]; simp only [List.map_cons, List.sum_cons]; unfold wireSize; omega
  have h2 : ((available w' src).map wireSize).sum ≤ (q.named.map fun src => ((available w' src).map wireSize).sum).sum := by
    generalize q.named = l at hm
    induction l with
    | nil => cases hm
    | cons x l ih =>
      rw [List.map_cons, List.sum_cons]
      rcases List.mem_cons.1 hm with rfl | hm
      · omega
      · have := ih hm; omega
  omega

/-- Example: nothing to deliver at first; the record comes while Fetch waits, and Fetch answers before its time is up. -/
example : ∃ tr w' resp, Exec exFetchWorld (fetch ⟨-1, 100, 1, [⟨[116], [⟨0, 2, 1000⟩]⟩]⟩) tr w' (.ret resp) ∧
    w'.clock ≤ exFetchWorld.clock + 100 * 1000000 ∧ w'.cancelled = false ∧ available exFetchWorld ([116], ⟨0, 2, 1000⟩) = [] ∧
    resp.responses.map (fun rt => rt.partitions.map fun rp => rp.records.msgs.length) = [[1]] :=
  ⟨_, _, ⟨0, [⟨[116], [⟨0, 0, 3, ⟨[MessageV1.ofRecord 2 ⟨0, 77, none, none, []⟩], 3, 34⟩⟩]⟩]⟩,
    Prog.run_ret (sch := go 9 ++ .env (.post [116] 0 ⟨0, 77, none, none, []⟩) :: go 16) rfl, by decide, by decide, by decide, by decide⟩

/-- C67 is false of MinBytes: the client asks for 100000 bytes within a second, there are 35, and they are delivered at once. -/
theorem C67_false_minimum : ∃ tr w' resp, Exec exFetchWorld (fetch ⟨-1, 1000, 100000, [⟨[116], [⟨0, 1, 1000⟩]⟩]⟩) tr w' (.ret resp) ∧
    w'.clock = exFetchWorld.clock ∧ w'.cancelled = false ∧ ((available w' ([116], ⟨0, 1, 1000⟩)).map wireSize).sum = 35 :=
  ⟨_, _, ⟨0, [⟨[116], [⟨0, 0, 2, ⟨[MessageV1.ofRecord 1 ⟨0, 30, none, some [2], []⟩], 2, 35⟩⟩]⟩]⟩,
    Prog.run_ret (sch := go 20) rfl, by decide, by decide, by decide⟩

/-- C67 is false of several partitions of one topic: the record in the second one makes Fetch answer at once, and the answer is empty. -/
theorem C67_false_empty : ∃ tr w', Exec exFetchWorld (fetch ⟨-1, 1000, 1, [⟨[116], [⟨0, 2, 1000⟩, ⟨1, 0, 1000⟩]⟩]⟩) tr w'
      (.ret ⟨0, [⟨[116], [⟨0, 0, 2, ⟨[], 2, 0⟩⟩, ⟨1, 0, 2, ⟨[], 2, 0⟩⟩]⟩]⟩) ∧ w'.clock = exFetchWorld.clock ∧ w'.cancelled = false :=
  ⟨_, _, Prog.run_ret (sch := go 20) rfl, by decide, by decide⟩

end KM.Props
