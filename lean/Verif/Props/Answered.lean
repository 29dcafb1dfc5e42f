import Verif.Answers
import Verif.Props.Live
import Verif.Props.System
/-
C70: everything that a connection has read is answered; and what C36 and C49 say about the whole mock under a fair scheduler.
-/
namespace KM.Props
open Spec

variable {sv : Server} {clock : Int} {ss : Nat → Sys} {es : Nat → SEv}

/-- What connection `c` has done before step `n`. -/
def past (es : Nat → SEv) (c n : Nat) : List REv := actsOf c (evs es 0 n)

theorem past_prefix {c n m : Nat} (h : n ≤ m) : ∃ l, past es c m = past es c n ++ l := by
  refine ⟨actsOf c (evs es (0 + n) (m - n)), ?_⟩
  unfold past
  rw [← actsOf_append, ← evs_add, Nat.add_sub_cancel' h]

/-- All requests read have been processed. -/
theorem idle_of {inb : Bytes} {l l1 l2 : List REv} {e : REv} {q : Prog Unit} (h : Conv sv inb l q) (ho : e.act = .recv ∨ e.act = .close) (hl : l = l1 ++ e :: l2) (hi : inb = []) :
    served l1 = frames (received l1) ∧ ended l1 = (served l1).length ∧ (AllSent l1 → Small l1 →
      ∃ rs, Framed (sent l1) rs ∧ List.Forall₂ (fun m r => requestCorrelation m = responseCorrelation r) (served l1) rs) := by
  subst hi
  have ht := conv_tidy h
  rw [hl] at ht
  exact ⟨outer_idle h ho hl, tidy_outer ho ht, fun ha hs => outer_answered h ho hl ha hs⟩

theorem received_last {e : REv} (he : e ≠ ⟨.isStopping, false⟩) (l : List REv) : received (l ++ [e]) = received l := by
  fun_induction received l with
  | case1 b l ih => simpa [received] using ih
  | case2 x l hne ih =>
    rw [List.cons_append, received.eq_2 x (l ++ [e]) fun b l3 h1 h2 => ?_]
    · exact ih
    · cases l with
      | nil => cases h2; exact he rfl
      | cons y l => cases h2; exact hne b l h1 rfl
  | case3 =>
    rw [List.nil_append, received.eq_2 e [] fun b l3 h1 h2 => by cases h2]
    rfl

theorem served_last {e : REv} (he : ∀ m, e.act ≠ .reqBegin m) (l : List REv) : served (l ++ [e]) = served l := by
  induction l with
  | nil => obtain ⟨a, r⟩ := e; cases a <;> first | rfl | exact absurd rfl (he _)
  | cons x l ih =>
    obtain ⟨a, r⟩ := x
    cases a <;> first | exact ih | exact congrArg (_ :: ·) ih

theorem ended_last {e : REv} (he : e.act ≠ .reqEnd) (l : List REv) : ended (l ++ [e]) = ended l := by
  induction l with
  | nil => obtain ⟨a, r⟩ := e; cases a <;> first | rfl | exact absurd rfl he
  | cons x l ih =>
    obtain ⟨a, r⟩ := x
    cases a <;> first | exact ih | exact congrArg (· + 1) ih

theorem ended_le (l l2 : List REv) : ended l ≤ ended (l ++ l2) := by
  induction l with
  | nil => exact Nat.zero_le _
  | cons x l ih =>
    obtain ⟨a, r⟩ := x
    cases a <;> first | exact ih | exact Nat.succ_le_succ ih

theorem not_yet {s s' : Sys} {e : SEv} {c : Nat} (h : Sys.Step s e s') (hn : s'.conns[c]? = none) : s.conns[c]? = none := by
  cases hx : s.conns[c]? with
  | none => rfl
  | some k =>
    exfalso
    by_cases he : e.of = some (.conn c)
    · obtain ⟨k0, _, a2⟩ := step_conn_self h he
      cases a2 with
      | act _ _ _ hk => rw [hn] at hk; cases hk
      | loop _ hk => rw [hn] at hk; cases hk
      | ret _ hk => rw [hn] at hk; cases hk
      | oc _ hk => rw [hn] at hk; cases hk
    · rw [step_conn_other h hx he] at hn; cases hn

theorem _root_.KM.Sys.Run.not_yet {s s' : Sys} {tr : List SEv} {c : Nat} (h : Sys.Run s tr s') (hn : s'.conns[c]? = none) : s.conns[c]? = none := by
  induction h with
  | nil => exact hn
  | cons h _ ih => exact KM.Props.not_yet h (ih hn)

theorem no_past {s s' : Sys} {tr : List SEv} {c : Nat} (hr : Sys.Run s tr s') (hn : s'.conns[c]? = none) : actsOf c tr = [] := by
  induction hr with
  | nil => rfl
  | cons hst hs ih =>
    rw [actsOf_cons, ih hn, List.append_nil]
    exact hst.no_acts (not_yet hst (hs.not_yet hn))

/-- **C70**: whatever a connection has read by step `n`, there is a later moment at which all requests in it have been processed: in the order in which
they came, each to its end. If all bytes could be sent, each has got its response. The scheduler is fair, nothing panics (the run goes on for ever), and every
Fetch that arrives on the connection has room for the records of its partitions. Missing for the full statement: a Fetch that has no room (`C70_false`). -/
theorem C70_partial (h : KM.Endless sv clock ss es F) {c : Nat} (hr : RoomyOn ss es c) (n : Nat) (hF : F (.conn c) := by first | exact trivial | assumption) :
    ∃ m, n ≤ m ∧ frames (received (past es c n)) <+: served (past es c m) ∧ served (past es c m) = frames (received (past es c m)) ∧
      ended (past es c m) = (served (past es c m)).length ∧
      (AllSent (past es c m) → Small (past es c m) → ∃ rs, Framed (sent (past es c m)) rs ∧
        List.Forall₂ (fun m r => requestCorrelation m = responseCorrelation r) (served (past es c m)) rs) := by
  suffices hs : ∃ m, n ≤ m ∧ served (past es c m) = frames (received (past es c m)) ∧ ended (past es c m) = (served (past es c m)).length ∧
      (AllSent (past es c m) → Small (past es c m) → ∃ rs, Framed (sent (past es c m)) rs ∧
        List.Forall₂ (fun m r => requestCorrelation m = responseCorrelation r) (served (past es c m)) rs) by
    obtain ⟨m, m1, m2, m3, m4⟩ := hs
    refine ⟨m, m1, ?_, m2, m3, m4⟩
    rw [m2]
    obtain ⟨l, hl⟩ := past_prefix (es := es) (c := c) m1
    rw [hl]
    obtain ⟨t, ht⟩ := received_append (past es c n) l
    rw [← ht]
    exact frames_append _ _
  have run : ∀ m, Sys.Run (Sys.new sv clock) (evs es 0 m) (ss m) := fun m => by
    have h0 := h.evs 0 m
    rw [Nat.zero_add, h.first] at h0
    exact h0
  by_cases hc : (ss n).conns[c]? = none
  · have hp : past es c n = [] := no_past (run n) hc
    refine ⟨n, Nat.le_refl _, ?_⟩
    rw [hp]
    exact ⟨rfl, rfl, fun _ _ => ⟨[], .nil, .nil⟩⟩
  · obtain ⟨m, m1, ⟨a, r, he, ho⟩ | hl⟩ := h.reads_on hr hc
    · refine ⟨m, m1, ?_⟩
      have hst := h.step m
      rw [he] at hst
      obtain ⟨k, f, a1, hq, _⟩ := step_conn_acts hst
      obtain ⟨w, w', e1, e2, p2, x1, x2, o1, o2⟩ := (run m).connection_at (.cons (h.step m) (.nil _)) a1 hq
      have hx := handle_conv (x1.trans x2).own
      rw [own_append, o1, o2, he, actsOf_one] at hx
      exact idle_of (e := ⟨a, r⟩) hx ho rfl rfl
    · refine ⟨m, m1, ?_⟩
      obtain ⟨k, hk, hb⟩ := hl
      obtain ⟨w, w', t, p, x1, x2, x3⟩ := (run m).connection hk
      rcases x3 with x3 | ⟨_, rfl⟩
      · exact absurd x3 (hb _)
      have hcv := handle_conv x1.own
      rw [x2] at hcv
      obtain ⟨l0, e⟩ := C49_mock_closes (run m) hk hb
      obtain ⟨l1, e, ho, hl⟩ : ∃ l1 e, (e = (⟨.close, ()⟩ : REv) ∨ e = ⟨.recv, .closed⟩) ∧ past es c m = l1 ++ [e] := by
        rcases e with e | e
        · exact ⟨l0 ++ [⟨.isDone, true⟩], _, .inl rfl, by unfold past; rw [e]; simp⟩
        · exact ⟨l0 ++ [⟨.isDone, false⟩], _, .inr rfl, by unfold past; rw [e]; simp⟩
      have := idle_of hcv (e := e) (l1 := l1) (l2 := []) (by rcases ho with rfl | rfl <;> simp) hl rfl
      have h1 : e ≠ ⟨.isStopping, false⟩ := by rcases ho with rfl | rfl <;> nofun
      have h2 : ∀ m, e.act ≠ .reqBegin m := by rcases ho with rfl | rfl <;> nofun
      have h3 : e.act ≠ .reqEnd := by rcases ho with rfl | rfl <;> nofun
      rw [hl, received_last h1, served_last h2, ended_last h3]
      refine ⟨this.1, this.2.1, fun ha hs => ?_⟩
      rw [sent_append, show sent [e] = [] by rcases ho with rfl | rfl <;> rfl, List.append_nil]
      exact this.2.2 (fun b hb => ha b (List.mem_append_left _ hb)) fun b ok hb => hs b ok (List.mem_append_left _ hb)

/-- The Fetch request with room for 10 bytes is read, and nothing is ever sent. -/
theorem fetch_unanswered : ∃ (ss : Nat → Sys) (es : Nat → SEv) (n : Nat), KM.Endless ⟨9092, []⟩ 0 ss es ∧ frames (received (past es 0 n)) = [fetchBytes.drop 4] ∧
    ∀ n', sent (past es 0 n') = [] ∧ ended (past es 0 n') = 0 := by
  obtain ⟨ss, es, tr, s, h1, _, h2, h3, h4⟩ := spinning_run
  have hq : ((Sys.play spinning (Sys.new ⟨9092, []⟩ 0)).map fun x => decide (frames (received (actsOf 0 x.1)) = [fetchBytes.drop 4] ∧ sent (actsOf 0 x.1) = [] ∧
      ended (actsOf 0 x.1) = 0)) = some true := by decide +kernel
  rw [h2] at hq
  obtain ⟨q1, q2, q3⟩ := of_decide_eq_true (Option.some.inj hq)
  refine ⟨ss, es, tr.length, h1.toEndless, by unfold past; rw [h3]; exact q1, fun n' => ?_⟩
  have key : ∀ d, sent (past es 0 (tr.length + d)) = [] ∧ ended (past es 0 (tr.length + d)) = 0 := by
    intro d
    induction d with
    | zero => unfold past; rw [Nat.add_zero, h3]; exact ⟨q2, q3⟩
    | succ d ih =>
      unfold past at ih ⊢
      rw [← Nat.add_assoc, evs_succ, actsOf_append, Nat.zero_add]
      rcases (h4 (tr.length + d) (by omega)).2 with e | e
      · rw [e, show actsOf 0 [.unroll 0] = [] from rfl, List.append_nil]; exact ih
      · rw [e, actsOf_one, sent_append, ended_last (by intro e; cases e), ih.1, ih.2]; exact ⟨rfl, rfl⟩
  obtain ⟨k1, k2⟩ := key n'
  obtain ⟨l, hl⟩ := past_prefix (es := es) (c := 0) (Nat.le_add_left n' tr.length)
  rw [hl] at k1 k2
  rw [sent_append] at k1
  exact ⟨(List.append_eq_nil_iff.1 k1).1, Nat.le_zero.1 (Nat.le_trans (ended_le _ l) (Nat.le_of_eq k2))⟩

/-- C70 is false without the restriction on Fetch: a connection has read one request, and nothing is ever sent. -/
theorem C70_false : ∃ (ss : Nat → Sys) (es : Nat → SEv) (n : Nat) (m : Bytes), KM.Endless ⟨9092, []⟩ 0 ss es ∧ frames (received (past es 0 n)) = [m] ∧
    ∀ n', sent (past es 0 n') = [] ∧ ended (past es 0 n') = 0 := by
  obtain ⟨ss, es, n, h⟩ := fetch_unanswered
  exact ⟨ss, es, n, _, h⟩

/-- The hypotheses of `C70_partial` can be met: a run in which a Fetch has been read and is being processed at step `n`. -/
theorem C70_example : ∃ (ss : Nat → Sys) (es : Nat → SEv) (n : Nat) (m : Bytes), KM.Endless ⟨9092, []⟩ 0 ss es ∧ RoomyOn ss es 0 ∧
    frames (received (past es 0 n)) = [m] ∧ (fetchAsked m).isSome ∧ ended (past es 0 n) = 0 := by
  obtain ⟨ss, es, n, h1, h2, _, tr, s, h3, h4, _⟩ := settles_run fetchInService_settles
  have hq : ((Sys.play fetchInService (Sys.new ⟨9092, []⟩ 0)).map fun x => decide (frames (received (actsOf 0 x.1)) = [(fetchBytes.drop 4).take 48 ++ [3, 232]] ∧
      ended (actsOf 0 x.1) = 0)) = some true := by decide +kernel
  rw [h3] at hq
  obtain ⟨q1, q2⟩ := of_decide_eq_true (Option.some.inj hq)
  refine ⟨ss, es, n, _, h1.toEndless, h2 0, by unfold past; rw [h4]; exact q1, by decide +kernel, by unfold past; rw [h4]; exact q2⟩

/-! ### C36 and C49 in the whole mock -/

/-- **C36** in the whole mock: a request that is taken up is laid down again, Fetch included, if the Fetch requests of that connection have room. -/
theorem C36_mock_partial (h : KM.Endless sv clock ss es F) {c n : Nat} (hr : RoomyOn ss es c) {m : Bytes} (hb : es n = .conn c (.reqBegin m) ()) (hF : F (.conn c) := by first | exact trivial | assumption) :
    ∃ j, n < j ∧ es j = .conn c .reqEnd () := by
  obtain ⟨j, h1, h2, _⟩ := h.lays_down hr hb
  exact ⟨j, h1, h2⟩

/-- **C49** in the whole mock: from the moment `FinishRequests` or `RequestStop` has cancelled the context, every connection there is comes to its end:
it leaves its loop, with its connection closed or the client gone. -/
theorem C49_mock_ends_partial (h : KM.Endless sv clock ss es) (hr : Roomy ss es) {i n : Nat} {cl : Call} (ha : Cancelling (ss n) i) (hc : es n = .life (.api i cl))
    {c : Nat} {k : ConnG} (hk : (ss n).conns[c]? = some k) :
    ∃ m, n < m ∧ (ss m).conns[c]? = some { k with pc := .ended } ∧
      ∃ l0, past es c m = l0 ++ [⟨.isDone, true⟩, ⟨.close, ()⟩] ∨ past es c m = l0 ++ [⟨.isDone, false⟩, ⟨.recv, .closed⟩] := by
  have run : ∀ m, Sys.Run (Sys.new sv clock) (evs es 0 m) (ss m) := fun m => by
    have h0 := h.evs 0 m
    rw [Nat.zero_add, h.first] at h0
    exact h0
  obtain ⟨_, hat, hct⟩ := (run n).whole
  have hst := h.step n
  rw [hc] at hst
  generalize hs' : ss (n + 1) = s' at hst
  cases hst with
  | life hn =>
  have hkc : (ss (n + 1)).conns[c]? = some k := by
    rw [hs', show s'.conns = (ss n).conns from apiStep_conns hn]; exact hk
  obtain ⟨m, m1, m2⟩ := h.conn_ends (h.not_feeds hr) hkc fun p hp => by
    rw [hs']
    exact (cancelling_done ha hn (hct.live hat hk (by rw [hp]; rfl))).1
  exact ⟨m, by omega, m2, C49_mock_closes (run m) m2 nofun⟩

def finishing : List Pick := caller 0 .finishRequests 1 ++ List.replicate 10 (.conn 0) ++ closesUp 0 ++ caller 0 .requestStop 8 ++ List.replicate 4 (.run 0)

theorem finishing_settles : settles fetchInService .finishRequests finishing = true := by decide +kernel

/-- Connection 0 has done something, and the caller's next step comes right after the call. -/
def finishesNow : Bool :=
  match Sys.play fetchInService (Sys.new ⟨9092, []⟩ 0) with
  | none => false
  | some (tr, s) => match s.next (.api 0 .finishRequests) with
    | .ok s2 => match Sys.play finishing s2 with
      | some (.life (.api 0 _) :: _, _) => !(actsOf 0 tr).isEmpty
      | _ => false
    | _ => false

/-- The hypotheses of `C49_mock_ends_partial` can be met: FinishRequests cancels while a Fetch is being served. -/
example : ∃ (ss : Nat → Sys) (es : Nat → SEv) (n : Nat) (cl : Call) (k : ConnG), KM.Endless ⟨9092, []⟩ 0 ss es ∧ Roomy ss es ∧ Cancelling (ss n) 0 ∧ es n = .life (.api 0 cl) ∧
    (ss n).conns[0]? = some k := by
  obtain ⟨ss, es, n, h1, h2, h3, tr, s, h4, h5, s2, h6, tr2, s3, h7, h8⟩ := settles_run finishing_settles
  have hq : finishesNow = true := by decide +kernel
  unfold finishesNow at hq
  simp only [h4, h6, h7] at hq
  split at hq
  · next cl rest _ hx =>
    cases hx
    have he : es (n + 1) = .life (.api 0 cl) := by
      have := congrArg (·[0]?) h8
      simpa [evs] using this
    cases hk : (ss (n + 1)).conns[0]? with
    | none =>
      exfalso
      have h0 := h1.toEndless.evs 0 n
      rw [Nat.zero_add, h1.toEndless.first] at h0
      have := no_past h0 (not_yet (h1.toEndless.step n) hk)
      rw [h5] at this
      rw [this] at hq; cases hq
    | some k => exact ⟨ss, es, n + 1, cl, k, h1.toEndless, h2, .inl (h3.entry h1), he, hk⟩
  · cases hq

end KM.Props
