import Verif.Props.Answered
import Verif.Props.Visible
import Verif.Props.Strict
/-
C102: every request that arrives is taken up in its turn and answered, so that what the other properties say about answered requests holds of it.
-/
namespace KM.Props
open Spec

variable {sv : Server} {clock : Int} {ss : Nat → Sys} {es : Nat → SEv}

theorem served_begin (l : List REv) (m : Bytes) : served (l ++ [⟨.reqBegin m, ()⟩]) = served l ++ [m] := by
  induction l with
  | nil => rfl
  | cons x l ih =>
    obtain ⟨a, r⟩ := x
    cases a <;> first | exact ih | exact congrArg (_ :: ·) ih

theorem past_succ (es : Nat → SEv) (c n : Nat) : past es c (n + 1) = past es c n ++ actsOf c [es n] := by
  unfold past
  rw [evs_succ, actsOf_append, Nat.zero_add]

/-- A request among those taken up before step `m` was taken up at some step. -/
theorem taken_at {c i : Nat} {x : Bytes} (m : Nat) (h : (served (past es c m))[i]? = some x) :
    ∃ a, a < m ∧ (served (past es c a)).length = i ∧ es a = .conn c (.reqBegin x) () := by
  induction m with
  | zero => cases h
  | succ m ih =>
    by_cases hs : served (past es c (m + 1)) = served (past es c m)
    · rw [hs] at h
      obtain ⟨a, a1, a2⟩ := ih h
      exact ⟨a, by omega, a2⟩
    · have key : ∃ y, es m = .conn c (.reqBegin y) () := by
        refine Classical.byContradiction fun hno => hs ?_
        rw [past_succ]
        have hq : ∀ e ∈ actsOf c [es m], ∀ y, e.act ≠ .reqBegin y := by
          intro e he y hy
          obtain ⟨a, r⟩ := e
          have := mem_actsOf he
          rw [List.mem_singleton] at this
          dsimp only at hy
          subst hy
          exact hno ⟨y, this.symm⟩
        rcases hl : actsOf c [es m] with _ | ⟨e, _ | ⟨e', l⟩⟩
        · rw [List.append_nil]
        · exact served_last (hq e (by rw [hl]; simp)) _
        · exfalso
          have hle : (actsOf c [es m]).length ≤ 1 := List.length_filterMap_le _ _
          rw [hl] at hle
          simp at hle
      obtain ⟨y, hy⟩ := key
      rw [past_succ, hy, actsOf_one, served_begin] at h
      by_cases hi : i < (served (past es c m)).length
      · rw [List.getElem?_append_left hi] at h
        obtain ⟨a, a1, a2⟩ := ih h
        exact ⟨a, by omega, a2⟩
      · rw [List.getElem?_append_right (by omega)] at h
        have hi' : i - (served (past es c m)).length = 0 := by
          refine Classical.byContradiction fun c => ?_
          rw [List.getElem?_eq_none (by simp; omega)] at h
          cases h
        rw [hi'] at h
        cases h
        exact ⟨m, by omega, by omega, hy⟩

/-- In a run that goes on for ever, the dispatcher never returns an error. -/
theorem _root_.KM.Endless.dispatched (h : KM.Endless sv clock ss es F) {c a b : Nat} {m : Bytes} (hab : a < b) (ha : es a = .conn c (.reqBegin m) ())
    (hb : es b = .conn c .reqEnd ()) (hno : ∀ j, a < j → j < b → es j ≠ .conn c .reqEnd ()) (hF : F (.conn c) := by first | exact trivial | assumption) :
    Serves sv clock c m (evs es 0 a) (ss (a + 1)) (evs es (a + 1) (b - (a + 1))) (ss b) ∧
    ∃ (ctx : Nat) (l : List Ev), Exec ((ss (a + 1)).view ctx) (dispatcher sv ⟨m⟩ m.length) l ((ss b).view ctx) (.ret .done) ∧
      own l = actsOf c (evs es (a + 1) (b - (a + 1))) := by
  have eb : a + 1 + (b - (a + 1)) = b := by omega
  have h0 := h.evs 0 a
  rw [Nat.zero_add, h.first] at h0
  have hn := no_reqEnd (es := es) (c := c) (b := a + 1) (d := b - (a + 1)) fun j h1 h2 => hno j (by omega) (by omega)
  refine ⟨⟨⟨ss a, h0, by rw [← ha]; exact h.step a⟩, by have := h.evs (a + 1) (b - (a + 1)); rwa [eb] at this, ⟨ss (b + 1), by rw [← hb]; exact h.step b⟩, ?_⟩, ?_⟩
  · intro hm
    obtain ⟨i, i1, i2, e⟩ := mem_evs hm
    exact hno i (by omega) (by omega) e
  obtain ⟨k, G, hk, hp, hG⟩ := h.taken_err ha
  obtain ⟨l, x, x1, x2, x3⟩ := h.in_service hk hp (fun res => ⟨_, (hG res).choose_spec.1⟩) (b - (a + 1)) fun j h1 h2 => hno j (by omega) (by omega)
  rw [eb] at x1 x2
  have hst := h.step b
  rw [hb] at hst
  obtain ⟨k', f, a1, hq, hk'⟩ := step_conn_acts hst
  rw [x1] at a1; cases a1
  dsimp only at hq
  cases x with
  | panic => cases hq
  | loop => cases hq
  | act a g =>
    simp only [Prog.bind_act] at hq
    cases hq
    exact ((x2.only (dispatcher_onlyInner sv _ _)).1.1).elim
  | ret res =>
    cases res with
    | done => exact ⟨k.ctx, l, x2, x3⟩
    | err =>
      obtain ⟨g, hg, hpan⟩ := hG .err
      change ConnPc.body (G .err) = _ at hq
      rw [hg] at hq
      cases hq
      rw [hpan rfl] at hk'
      exact (h.conn_panic hk' rfl).elim

/-- What has been taken up has arrived. -/
theorem served_le (h : KM.Endless sv clock ss es F) (c n : Nat) : (served (past es c n)).length ≤ (frames (received (past es c n))).length := by
  have h0 := h.evs 0 n
  rw [Nat.zero_add, h.first] at h0
  cases hk : (ss n).conns[c]? with
  | none => unfold past; rw [no_past h0 hk]; exact Nat.zero_le _
  | some k => exact (C11_mock h0 hk).length_le

theorem past_served_mono {c n m : Nat} (h : n ≤ m) : (served (past es c n)).length ≤ (served (past es c m)).length := by
  obtain ⟨l, hl⟩ := past_prefix (es := es) (c := c) h
  rw [hl, served_length, served_length, List.countP_append]
  omega

/-- **C102**: a message that has arrived by step `n`, as the `i`-th on its connection, is taken up after exactly `i` others, is accepted as a request (otherwise the process
would have come to its end), and is answered. It is not taken up before it has arrived.
`Exchange` is what the other properties of requests and responses (C59, C60, C71, C73, C76, C78, C90) start from, so that these hold of every request that
arrives. The scheduler is fair, nothing panics, no write to the connection fails, and every Fetch that arrives on the connection has room for the records
of its partitions. Missing for the full statement: a Fetch that has no room (`C70_false`). -/
theorem C102_partial (h : KM.Endless sv clock ss es F) {c : Nat} (hr : RoomyOn ss es c) (hw : ∀ n, AllSent (past es c n)) {n i : Nat} {msg : Bytes}
    (arrived : (frames (received (past es c n)))[i]? = some msg) (hF : F (.conn c) := by first | exact trivial | assumption) :
    ∃ req corr client a b, Accepted req corr client msg ∧ FitsBuffer req corr client ∧
      a < b ∧ es a = .conn c (.reqBegin msg) () ∧ (served (past es c a)).length = i ∧ es b = .conn c .reqEnd () ∧
      (∀ p, (frames (received (past es c p))).length ≤ i → p ≤ a) ∧
      Exchange sv clock c req corr (evs es 0 a) (ss (a + 1)) (evs es (a + 1) (b - (a + 1))) (ss b) := by
  obtain ⟨m, _, ⟨t, ht⟩, _⟩ := C70_partial h hr n
  have hi : i < (frames (received (past es c n))).length := (List.getElem?_eq_some_iff.1 arrived).1
  obtain ⟨a, _, a2, a3⟩ := taken_at (es := es) (c := c) (i := i) m (by rw [← ht, List.getElem?_append_left hi]; exact arrived)
  obtain ⟨b, b1, b2, b3⟩ := h.lays_down hr a3
  obtain ⟨hs, ctx, l, x1, x2⟩ := h.dispatched b1 a3 b2 b3
  have hsent : AllSent (actsOf c (evs es (a + 1) (b - (a + 1)))) := by
    intro bs hbs
    refine hw b bs ?_
    unfold past
    rw [show b = (a + 1) + (b - (a + 1)) by omega, evs_add, actsOf_append, Nat.zero_add]
    exact List.mem_append_right _ hbs
  obtain ⟨req, corr, client, acc, wf, _, fits, _, _⟩ := C103_answered x1 (.inr rfl)
  refine ⟨req, corr, client, a, b, acc, fits, b1, a3, a2, b2, fun p hp => ?_, wf, fits.2, ⟨client, msg, ⟨acc, fits.1⟩, hs⟩, hsent, ?_⟩
  · refine Classical.byContradiction fun hlt => ?_
    have h1 := past_served_mono (es := es) (c := c) (show a + 1 ≤ p by omega)
    have h2 := served_le h c p
    rw [past_succ, a3, actsOf_one, served_begin, List.length_append, List.length_singleton, a2] at h1
    omega
  · rw [← x2]
    exact dispatched_sent acc fits x1 (by rw [x2]; exact hsent)

/-- **C102** for a given request: every accepted message of it that fits the read buffer is answered, as this request. -/
theorem C102_request_partial (h : KM.Endless sv clock ss es F) {c : Nat} (hr : RoomyOn ss es c) (hw : ∀ n, AllSent (past es c n)) {n i : Nat} {req : Request}
    {corr : I32} {client : Option Bytes} {msg : Bytes} (ha : Accepted req corr client msg) (hf : FitsBuffer req corr client)
    (arrived : (frames (received (past es c n)))[i]? = some msg) (hF : F (.conn c) := by first | exact trivial | assumption) :
    ∃ a b, a < b ∧ es a = .conn c (.reqBegin msg) () ∧ (served (past es c a)).length = i ∧ es b = .conn c .reqEnd () ∧
      (∀ p, (frames (received (past es c p))).length ≤ i → p ≤ a) ∧
      Exchange sv clock c req corr (evs es 0 a) (ss (a + 1)) (evs es (a + 1) (b - (a + 1))) (ss b) := by
  obtain ⟨req', corr', client', a, b, h1, h2, h3⟩ := C102_partial h hr hw arrived
  obtain ⟨rfl, rfl, rfl, _⟩ := C103_unambiguous (e := []) (e' := []) ha hf h1 h2 rfl
  exact ⟨a, b, h3⟩

/-- **C102**, delivery: when SimplePost or ExtendedPost has returned at step `p`, its record has an offset `pos`; every Fetch request that arrives afterwards, on
any connection, and asks for the partition from an offset not after `pos`, is answered with the record. The conditions are those of `C102_partial`; moreover no
record and no response is 2 GiB or larger, and the request names one partition per topic (`C60_false`). -/
theorem C102_delivery_partial (h : KM.Endless sv clock ss es) {sa : Sys} {caller p : Nat} {call : PostCall} {tc : List SEv}
    (hcall : CallRun sa caller call.call tc (ss p)) (hs : ∀ n t q, ∀ r ∈ ((ss n).view 0).log t q, wireSize r < 2 ^ 31) :
    ∃ (pos : Nat) (r : Record), call.Matches sa.clock (ss p).clock r ∧
      (((ss p).view 0).log call.topic (BitVec.ofInt 32 call.partition))[pos]? = some r ∧
      ∀ (c : Nat), RoomyOn ss es c → (∀ n, AllSent (past es c n)) → (∀ a d, (sent (actsOf c (evs es a d))).length < 2 ^ 31) →
        ∀ (n i : Nat) (q : FetchRequest) (corr : I32) (client : Option Bytes) (msg : Bytes), Accepted (.fetch q) corr client msg → FitsBuffer (.fetch q) corr client →
        (∀ t ∈ q.topics, ∃ p, t.partitions = [p]) → (frames (received (past es c p))).length ≤ i → (frames (received (past es c n)))[i]? = some msg →
        ∃ a d x, p ≤ a ∧ es a = .conn c (.reqBegin msg) () ∧ (served (past es c a)).length = i ∧
          es (a + 1 + d) = .conn c .reqEnd () ∧
          Client.response Client.fetch (sent (actsOf c (evs es (a + 1) d))) = some ((corr, 0, x), []) ∧
          List.Forall₂ (fun (qt : FetchTopic) (rt : Bytes × List Client.FetchedPartition) => rt.1 = qt.topic ∧
            List.Forall₂ (fun (par : FetchPartition) (fp : Client.FetchedPartition) => fp.partition = par.partition ∧
              (qt.topic = call.topic → par.partition = BitVec.ofInt 32 call.partition → 0 ≤ par.fetchOffset.toInt → par.fetchOffset.toInt ≤ pos →
                ∃ m, fp.messages[pos - par.fetchOffset.toInt.toNat]? = some m ∧ m.offset = BitVec.ofNat 64 pos ∧ m.timestamp = r.timestamp ∧
                  m.key = call.key ∧ m.value = call.value))
              qt.partitions rt.2) q.topics x := by
  obtain ⟨pos, r, h1, _, h2, h3⟩ := C60_posts_partial hcall
  refine ⟨pos, r, h1, h2, fun c hr hw hl n i q corr client msg acc fits single hp ha => ?_⟩
  obtain ⟨a, b, b1, a3, a2, b2, hpa, hx⟩ := C102_request_partial h hr hw acc fits ha
  have hpa := hpa p hp
  have hm := h.evs p (a + 1 - p)
  rw [show p + (a + 1 - p) = a + 1 by omega] at hm
  obtain ⟨x, g1, g2⟩ := h3 hm hx single (hs b) (hl _ _)
  exact ⟨a, b - (a + 1), x, hpa, a3, a2, by rw [show a + 1 + (b - (a + 1)) = b by omega]; exact b2, g1, g2⟩

/-- C102 is false without the condition on Fetch: a well-formed request, for at most 10 bytes of a partition whose only record is larger, has arrived, and nothing
is ever sent. -/
theorem C102_false : ∃ (ss : Nat → Sys) (es : Nat → SEv) (n : Nat) (q : FetchRequest), KM.Endless ⟨9092, []⟩ 0 ss es ∧ (Request.fetch q).WellFormed ∧
    (Request.fetch q).body.length ≤ 4096 ∧ frames (received (past es 0 n)) = [(Request.fetch q).message 7 (some [99])] ∧ ∀ m, sent (past es 0 m) = [] := by
  obtain ⟨ss, es, n, h1, h2, h3⟩ := fetch_unanswered
  refine ⟨ss, es, n, ⟨-1, 100, 1, [⟨[116], [⟨0, 0, 10⟩]⟩]⟩, h1, ?_, by decide, ?_, fun m => (h3 m).1⟩
  · unfold Request.WellFormed ShortList ShortStr; decide
  · rw [h2]; decide

/-! ### Such runs exist -/

/-- After step `N` time passes and nothing else happens. -/
theorem past_quiet {c N : Nat} (h : ∀ m, N ≤ m → es m = .tick 1) (n : Nat) : ∃ l, past es c N = past es c n ++ l := by
  by_cases hn : n ≤ N
  · exact past_prefix hn
  · refine ⟨[], ?_⟩
    have : ∀ d, past es c (N + d) = past es c N := by
      intro d
      induction d with
      | zero => rfl
      | succ d ih => rw [← Nat.add_assoc, past_succ, h _ (by omega), ih]; exact List.append_nil _
    rw [List.append_nil, ← this (n - N)]
    congr 1
    omega

/-- The post has been made, and is about to return; then a Fetch request arrives, is served and answered, and the mock is stopped. -/
def deliverA : List Pick := caller 0 (.simplePost [116] 0 none (some [1])) 4
def deliverB : List Pick :=
  caller 0 (.simplePost [116] 0 none (some [1])) 1 ++ [.conn 0, .conn 0, .recv 0 (.data (fetchBytes.take 52 ++ [3, 232]))] ++ List.replicate 8 (.conn 0) ++
  caller 0 .requestStop 8 ++ [.run 0] ++ List.replicate 10 (.conn 0) ++ closesUp 0 ++ List.replicate 3 (.run 0)

/-- The post. -/
def deliverCall : PostCall := ⟨[116], 0, none, some [1], none⟩

/-- The request: correlation id 7, client id "c". -/
def deliverFetch : FetchRequest := ⟨-1, 100, 1, [⟨[116], [⟨0, 0, 1000⟩]⟩]⟩

theorem deliver_settles : settles (starts 0 ++ opens 0 ++ accepts 0) deliverCall.call (deliverA ++ deliverB) = true := by decide +kernel

/-- What is used about the schedule. -/
def delivered (tr : List SEv) (tra tr2 : List SEv) (sa s3 : Sys) : Bool :=
  (match sa.api 0 with | .call (.ret ()) => true | _ => false) && (tra.all fun e => match e with | .life (.api _ _) => false | _ => true) &&
  ((actsOf 0 tr ++ actsOf 0 tr2).all fun e => !REv.failedWrite e) && decide ((sent (actsOf 0 tr ++ actsOf 0 tr2)).length < 2 ^ 31) &&
  decide (frames (received (actsOf 0 tr ++ actsOf 0 tra)) = []) &&
  decide (frames (received (actsOf 0 tr ++ actsOf 0 tr2)) = [(Request.fetch deliverFetch).message 7 (some [99])]) &&
  s3.ds.all fun t => t.2.all fun p => p.2.records.all fun r => decide (wireSize r < 2 ^ 31)

def deliverCheck : Bool :=
  match Sys.play (starts 0 ++ opens 0 ++ accepts 0) (Sys.new ⟨9092, []⟩ 0) with
  | none => false
  | some (tr, s) => match s.next (.api 0 deliverCall.call) with
    | .ok s2 => match Sys.play (deliverA ++ deliverB) s2, Sys.play deliverA s2 with
      | some (tr2, s3), some (tra, sa) => delivered tr tra tr2 sa s3
      | _, _ => false
    | _ => false

theorem _root_.KM.GoMap.mem_of_get {α β : Type} [DecidableEq α] {m : List (α × β)} {k : α} {v : β} (h : GoMap.get m k = some v) : ∃ k', (k', v) ∈ m := by
  induction m with
  | nil => cases h
  | cons e m ih =>
    unfold GoMap.get at h
    split at h
    · cases h; exact ⟨_, List.mem_cons_self ..⟩
    · obtain ⟨k', hk⟩ := ih h
      exact ⟨k', List.mem_cons_of_mem _ hk⟩

/-- The hypotheses of `C102_partial` and `C102_delivery_partial` can be met: a record is posted, a Fetch request arrives, and the run goes on for ever. -/
theorem C102_example : ∃ (ss : Nat → Sys) (es : Nat → SEv) (sa : Sys) (p n : Nat) (tc : List SEv), KM.Endless ⟨9092, []⟩ 0 ss es ∧
    CallRun sa 0 deliverCall.call tc (ss p) ∧ (∀ n t q, ∀ r ∈ ((ss n).view 0).log t q, wireSize r < 2 ^ 31) ∧ RoomyOn ss es 0 ∧ (∀ n, AllSent (past es 0 n)) ∧
    (∀ a d, (sent (actsOf 0 (evs es a d))).length < 2 ^ 31) ∧ Accepted (.fetch deliverFetch) 7 (some [99]) ((Request.fetch deliverFetch).message 7 (some [99])) ∧ FitsBuffer (.fetch deliverFetch) 7 (some [99]) ∧
    (frames (received (past es 0 p))).length = 0 ∧ (frames (received (past es 0 n)))[0]? = some ((Request.fetch deliverFetch).message 7 (some [99])) := by
  obtain ⟨ss, es, n, h1, h2, h3, tr, s, h4, h5, s2, h6, tr2, s3, h7, h8, h9, tra, sa, h10, h11, h12⟩ := settles_run_mid deliver_settles
  have hE := h1.toEndless
  have hq : deliverCheck = true := by decide +kernel
  unfold deliverCheck at hq
  simp only [h4, h6, h7, h10, delivered, Bool.and_eq_true, decide_eq_true_eq] at hq
  obtain ⟨⟨⟨⟨⟨⟨q1, q2⟩, q3⟩, q4⟩, q5⟩, q6⟩, q7⟩ := hq
  have hpast : ∀ d, past es 0 (n + 1 + d) = actsOf 0 tr ++ actsOf 0 (evs es (n + 1) d) := by
    intro d
    unfold past
    rw [evs_add, evs_add, h5, actsOf_append, actsOf_append, Nat.zero_add, Nat.zero_add]
    have : actsOf 0 (evs es n 1) = [] := by
      rw [show evs es n 1 = [es n] from rfl, h3.2]; rfl
    rw [this, List.append_nil]
  have hall := hpast tr2.length
  rw [h8] at hall
  have hmid := hpast tra.length
  rw [h11] at hmid
  rw [← hall] at q3 q4 q6
  have hw : ∀ m, AllSent (past es 0 m) := by
    intro m
    obtain ⟨l, hl⟩ := past_quiet (es := es) (c := 0) (fun m hm => (h9 m hm).1) m
    have := allSent_of q3
    rw [hl] at this
    exact fun b hb => this b (List.mem_append_left _ hb)
  refine ⟨ss, es, ss n, n + 1 + tra.length, n + 1 + tr2.length, tra, hE, ⟨h3.1, ⟨ss (n + 1), by rw [← h3.2]; exact hE.step n, by have := hE.evs (n + 1) tra.length; rwa [h11] at this⟩,
    fun c' hc' => ?_, ?_⟩, ?_, h2 0, hw, ?_, accepted_proper ?_ _ ?_, by unfold FitsBuffer; decide, ?_, ?_⟩
  · have := List.all_eq_true.1 q2 _ hc'
    cases this
  · rw [h12]
    revert q1
    generalize sa.api 0 = pc
    intro q1
    split at q1
    · rfl
    · cases q1
  · intro m t q r hr
    obtain ⟨tr', hrun⟩ := hE.run (Nat.le_max_left m (n + 1 + tr2.length))
    have hr' : r ∈ ((ss (max m (n + 1 + tr2.length))).view 0).log t q := by
      rw [(C46_kept hrun).1 t q]
      exact List.mem_append_left _ hr
    have hds := (h9 _ (Nat.le_max_right m (n + 1 + tr2.length))).2
    simp only [World.log, Sys.view, hds, Store.part?] at hr'
    cases ht : GoMap.get s3.ds t with
    | none => rw [ht] at hr'; cases hr'
    | some kt =>
      rw [ht, Option.bind_some] at hr'
      cases hp : GoMap.get kt q with
      | none => rw [hp] at hr'; cases hr'
      | some kp =>
        rw [hp] at hr'
        obtain ⟨_, m1⟩ := GoMap.mem_of_get ht
        obtain ⟨_, m2⟩ := GoMap.mem_of_get hp
        have := List.all_eq_true.1 (List.all_eq_true.1 (List.all_eq_true.1 q7 _ m1) _ m2) _ hr'
        exact of_decide_eq_true this
  · intro a d
    obtain ⟨l, hl⟩ := past_quiet (es := es) (c := 0) (fun m hm => (h9 m hm).1) (a + d)
    rw [hl] at q4
    unfold past at q4
    rw [evs_add, actsOf_append, Nat.zero_add, sent_append, sent_append, List.length_append, List.length_append] at q4
    omega
  · unfold deliverFetch Request.WellFormed ShortList ShortStr; decide
  · intro x hx; cases hx; unfold ShortStr; decide
  · rw [hmid, q5]; rfl
  · rw [q6]; rfl

end KM.Props
