import Verif.Props.Polls
import Verif.Props.DeliveredCases
/-
C109: a run without end in which a consumer fetches for ever, which meets the hypotheses of `C109`, `C109_progress` and `C109_all`.
-/
namespace KM.Props
open KM KM.Spec

/-- A run that comes back to the state it was in after `N` steps, after `L` more, can go on for ever. -/
theorem cycled {pre x : Nat → Net} {pev ev : Nat → NEv} {N L : Nat} (hL : 0 < L) (hp : ∀ n, n < N → Net.Step (pre n) (pev n) (pre (n + 1))) (h0 : x 0 = pre N) (hx : x L = x 0)
    (hs : ∀ n, n < L → Net.Step (x n) (ev n) (x (n + 1))) :
    ∃ (ns : Nat → Net) (es : Nat → NEv), (∀ n, Net.Step (ns n) (es n) (ns (n + 1))) ∧ (∀ n, n ≤ N → ns n = pre n) ∧ (∀ n, n < N → es n = pev n) ∧
      ∀ n, N ≤ n → ns n = x ((n - N) % L) ∧ es n = ev ((n - N) % L) := by
  refine ⟨fun n => if n < N then pre n else x ((n - N) % L), fun n => if n < N then pev n else ev ((n - N) % L), ?_, ?_, ?_, ?_⟩
  · intro n
    by_cases hn : n < N
    · simp only [hn, if_true]
      have := hp n hn
      by_cases hn' : n + 1 < N
      · simp only [hn', if_true]; exact this
      · have e : n + 1 = N := by omega
        rw [if_neg hn', e, Nat.sub_self, Nat.zero_mod, h0, ← e]; exact this
    · have hn1 : ¬ n + 1 < N := by omega
      simp only [hn, hn1, if_false, show n + 1 - N = n - N + 1 by omega]
      generalize n - N = m
      have hlt := Nat.mod_lt m hL
      have := hs _ hlt
      by_cases hm : m % L + 1 < L
      · rw [show (m + 1) % L = m % L + 1 by rw [Nat.add_mod, Nat.mod_eq_of_lt (show 1 < L by omega), Nat.mod_eq_of_lt hm]]; exact this
      · have e : m % L + 1 = L := by omega
        have e2 : (m + 1) % L = 0 := by
          rw [← Nat.mod_add_mod, e, Nat.mod_self]
        rw [e2, ← hx]
        rw [e] at this
        exact this
  · intro n hn
    by_cases h : n < N
    · exact if_pos h
    · have e : n = N := by omega
      simp only [e, Nat.sub_self, Nat.zero_mod, h0]
      rw [if_neg (by omega)]
  · intro n hn; exact if_pos hn
  · intro n hn; exact ⟨if_neg (by omega), if_neg (by omega)⟩

/-- The consumer asks for what comes after the first record; it does not wait. -/
def askNext : Request := .fetch ⟨-1, -1, 1, [⟨[116], [⟨0, 1, 1000⟩]⟩]⟩

theorem askNext_wf : askNext.WellFormed := by
  unfold askNext Request.WellFormed ShortList ShortStr
  decide

/-- The consumer sends its request, the mock answers, the consumer receives the response. -/
def pollOnce : List NPick := [.send 0 (frame askNext 7), .mock (.conn 0), .mock (.conn 0), .mock (.recv 0 (.data (frame askNext 7)))] ++ List.replicate 13 (.mock (.conn 0)) ++ [.receive 0 1000]

def pollSt : Nat → Net := netStAt pollOnce (servedRun.st 46)
def pollEv : Nat → NEv := netEvAt pollOnce (servedRun.st 46)

set_option maxRecDepth 100000 in
theorem poll_plays : (Net.play pollOnce (servedRun.st 46)).isSome = true := by decide +kernel

set_option maxRecDepth 100000 in
theorem poll_conn : ∃ k, (pollSt 18).sys.conns = [k] ∧ k.pc = .body (.loop ([] : Bytes) (handleBody ⟨9092, []⟩) .ret) := ⟨_, rfl, rfl⟩

/-- Neither callers nor accept loops do anything. -/
def quietEv : NEv → Bool
  | .mock (.conn ..) | .mock (.unroll _) | .send .. | .receive .. => true
  | _ => false

set_option maxRecDepth 100000 in
theorem poll_quiet : ((List.range 18).all fun n => quietEv (pollEv n)) = true := by decide +kernel

theorem quiet_step {n n' : Net} {e : NEv} (h : Net.Step n e n') (hq : quietEv e = true) :
    n'.sys.api = n.sys.api ∧ n'.sys.runs = n.sys.runs ∧ n'.sys.closes = n.sys.closes ∧ n'.sys.conns.length = n.sys.conns.length ∧ n'.sys.sv = n.sys.sv := by
  cases h with
  | mock h _ =>
    cases h with
    | conn => exact ⟨rfl, rfl, rfl, List.length_set .., rfl⟩
    | unroll => exact ⟨rfl, rfl, rfl, List.length_set .., rfl⟩
    | _ => cases hq
  | send => exact ⟨rfl, rfl, rfl, rfl, rfl⟩
  | receive => exact ⟨rfl, rfl, rfl, rfl, rfl⟩

theorem poll_step (n : Nat) (hn : n < 18) : Net.Step (pollSt n) (pollEv n) (pollSt (n + 1)) := netAt_step _ _ poll_plays n hn

theorem poll_still (n : Nat) (hn : n ≤ 18) : (pollSt n).sys.api = (servedRun.st 46).sys.api ∧ (pollSt n).sys.runs = (servedRun.st 46).sys.runs ∧ (pollSt n).sys.closes = (servedRun.st 46).sys.closes ∧
    (pollSt n).sys.conns.length = (servedRun.st 46).sys.conns.length ∧ (pollSt n).sys.sv = (servedRun.st 46).sys.sv := by
  have h0 : pollSt 0 = servedRun.st 46 := rfl
  induction n with
  | zero => rw [h0]; exact ⟨rfl, rfl, rfl, rfl, rfl⟩
  | succ n ih =>
    obtain ⟨i1, i2, i3, i4, i5⟩ := ih (by omega)
    obtain ⟨j1, j2, j3, j4, j5⟩ := quiet_step (poll_step n hn) (List.all_eq_true.1 poll_quiet n (List.mem_range.2 hn))
    exact ⟨j1.trans i1, j2.trans i2, j3.trans i3, j4.trans i4, j5.trans i5⟩

set_option synthInstance.maxSize 1000 in
set_option maxRecDepth 100000 in
theorem poll_same : ((pollSt 18).sys.mu = (servedRun.st 46).sys.mu ∧ (pollSt 18).sys.started = (servedRun.st 46).sys.started ∧ (pollSt 18).sys.stopped = (servedRun.st 46).sys.stopped ∧
    (pollSt 18).sys.listener = (servedRun.st 46).sys.listener ∧ (pollSt 18).sys.ctx = (servedRun.st 46).sys.ctx ∧ (pollSt 18).sys.cancels = (servedRun.st 46).sys.cancels ∧
    (pollSt 18).sys.done = (servedRun.st 46).sys.done ∧ (pollSt 18).sys.parentDone = (servedRun.st 46).sys.parentDone) ∧ (pollSt 18).sys.wg = (servedRun.st 46).sys.wg ∧
    (pollSt 18).sys.active = (servedRun.st 46).sys.active ∧ (pollSt 18).sys.init = (servedRun.st 46).sys.init ∧ (pollSt 18).sys.clients = (servedRun.st 46).sys.clients ∧
    (pollSt 18).sys.ds = (servedRun.st 46).sys.ds ∧ (pollSt 18).sys.clock = (servedRun.st 46).sys.clock ∧
    (pollSt 18).sys.conns.map (fun k => (k.gen, k.num, k.ctx)) = (servedRun.st 46).sys.conns.map fun k => (k.gen, k.num, k.ctx) := by
  refine ⟨⟨?_, ?_, ?_, ?_, ?_, ?_, ?_, ?_⟩, ?_, ?_, ?_, ?_, ?_, ?_, ?_⟩ <;> decide +kernel

set_option maxRecDepth 100000 in
/-- After that everything is as before. -/
theorem poll_back : pollSt 18 = pollSt 0 := by
  have h2 : (pollSt 18).links = (servedRun.st 46).links := by
    funext d
    match d with
    | 0 => decide +kernel
    | d + 1 => rfl
  obtain ⟨a1, a2, a3, _, a4⟩ := poll_still 18 (Nat.le_refl _)
  obtain ⟨k, b1, b2⟩ := poll_conn
  obtain ⟨k', c1, _, c2⟩ := served_conn
  obtain ⟨d1, d2⟩ := poll_same
  show pollSt 18 = servedRun.st 46
  generalize pollSt 18 = a at *
  generalize servedRun.st 46 = b at *
  obtain ⟨⟨⟨_, _⟩, _, _, _, _, _, _, _, _, _, _, _, _, _, _, _, _, _, _⟩, _⟩ := a
  obtain ⟨⟨⟨_, _⟩, _, _, _, _, _, _, _, _, _, _, _, _, _, _, _, _, _, _⟩, _⟩ := b
  obtain ⟨_, _, _, _⟩ := k
  obtain ⟨_, _, _, _⟩ := k'
  dsimp only at *
  subst b1 c1
  simp only [Prod.mk.injEq, List.map_cons, List.map_nil, List.cons.injEq] at d1 d2
  simp_all

set_option maxRecDepth 100000 in
theorem poll_ok : ((List.range 18).all fun n => servedOk (servedRun.st 46).sys (pollEv n)) = true := by decide +kernel

set_option maxRecDepth 100000 in
theorem poll_untold : ((List.range 18).all fun n => match (pollSt n).sys.conns[0]? with
    | some k => !(pollSt n).sys.isDone k.ctx
    | none => true) = true := by decide +kernel

set_option maxRecDepth 100000 in
theorem poll_receives : ∃ b, b ≠ [] ∧ pollEv 17 = .receive 0 b := ⟨_, by decide +kernel, rfl⟩

set_option maxRecDepth 100000 in
theorem poll_takes : (inMock (pollEv 1)).of = some (.conn 0) ∧ ∃ b, pollEv 3 = .mock (.conn 0 .recv (.data b)) := ⟨rfl, _, rfl⟩

/-- The run, without end. -/
theorem poll_endless : ∃ (ns : Nat → Net) (es : Nat → NEv), NetEndless ⟨9092, []⟩ 0 ns es ∧ Working ns es 0 ∧ RoomyOn (sysOf ns) (evOf es) 0 ∧ BelowLimit es 0 ∧
    (∀ n, ∃ m, n ≤ m ∧ (ns m).sys.view 0 = (servedRun.st 46).sys.view 0) ∧ (∀ n, n ≤ 46 → ns n = servedRun.st n) ∧ (∀ n, n < 46 → es n = servedRun.ev n) ∧
    (∀ n, 46 ≤ n → es n = pollEv ((n - 46) % 18)) ∧ ∀ n, 46 ≤ n → ns n = pollSt ((n - 46) % 18) := by
  obtain ⟨k, hc, hk, hp⟩ := served_conn
  obtain ⟨r1, r2, r3, r4, r5⟩ := served_quiet
  have hapi := served_api
  have hok := served_ok
  have hok' := poll_ok
  have hlast := fun n (hn : n < 46) => servedRun.step n hn
  have hfirst := servedRun.start
  have hun := served_untold
  have hun' := poll_untold
  have hstill := poll_still
  have hback := poll_back
  have hstep := poll_step
  obtain ⟨ht, tb, ht'⟩ := poll_takes
  obtain ⟨lb, hlb, hlb'⟩ := poll_receives
  have h0 : pollSt 0 = servedRun.st 46 := rfl
  generalize servedRun.st = st at *
  generalize servedRun.ev = ev at *
  generalize pollSt = x at *
  generalize pollEv = xe at *
  obtain ⟨ns, es, step, lo, loe, hi⟩ := cycled (pre := st) (x := x) (pev := ev) (ev := xe) (N := 46) (L := 18) (by decide) hlast h0 hback hstep
  have at_ : ∀ n i, i < 18 → ns (46 + 18 * n + i) = x i ∧ es (46 + 18 * n + i) = xe i := by
    intro n i hi'
    have := hi (46 + 18 * n + i) (by omega)
    rwa [show (46 + 18 * n + i - 46) % 18 = i by omega] at this
  have ok : ∀ n, servedOk (st 46).sys (es n) = true := by
    intro n
    by_cases hn : n < 46
    · rw [loe n hn]; exact List.all_eq_true.1 hok n (List.mem_range.2 hn)
    · rw [(hi n (by omega)).2]; exact List.all_eq_true.1 hok' _ (List.mem_range.2 (Nat.mod_lt _ (by decide)))
  have view : ∀ n, ∃ m, n ≤ m ∧ (ns m).sys.view 0 = (st 46).sys.view 0 :=
    fun n => ⟨46 + 18 * n + 0, by omega, by rw [(at_ n 0 (by decide)).1, h0]⟩
  have hE : NetEndless ⟨9092, []⟩ 0 ns es := by
    refine ⟨by rw [lo 0 (by decide)]; exact hfirst, step, ?_⟩
    intro t _ ht2 n
    obtain ⟨m, m1, m2⟩ := ht2 46
    obtain ⟨s1, s2, s3, s4, _⟩ := hstill ((m - 46) % 18) (by omega)
    rw [← (hi m m1).1] at s1 s2 s3 s4
    cases t with
    | api i =>
      have m2 : (((ns m).sys.api i).ready _ : Prop) := m2
      rw [s1, hapi] at m2
      cases m2
    | run g =>
      obtain ⟨r, a, b⟩ := m2
      rw [s2] at a
      have := List.all_eq_true.1 r1 r (List.mem_of_getElem? a)
      have : r.pc = .accept := by simpa using this
      rw [this] at b
      have b : g ∈ (ns m).sys.closes := b
      rw [s3, r2] at b
      cases b
    | conn c =>
      obtain ⟨r, a, b⟩ := m2
      cases c with
      | zero => exact ⟨46 + 18 * n + 1, by omega, by rw [(at_ n 1 (by decide)).2]; exact ht⟩
      | succ c =>
        have := (List.getElem?_eq_some_iff.1 a).1
        rw [s4, hc] at this
        simp at this
  refine ⟨ns, es, hE, ?_, ?_, ?_, view, lo, loe, fun n hn => (hi n hn).2, fun n hn => (hi n hn).1⟩
  · refine ⟨⟨46, ?_⟩, ?_, ?_, ?_, ?_, ?_⟩
    · rw [lo 46 (by omega), hc]
      exact fun h => nomatch h
    · intro n c hn
      by_cases h : n < 46
      · rw [lo n (by omega)] at hn ⊢
        have := List.all_eq_true.1 hun n (List.mem_range.2 h)
        rw [hn] at this
        simpa using this
      · rw [(hi n (by omega)).1] at hn ⊢
        have := List.all_eq_true.1 hun' ((n - 46) % 18) (List.mem_range.2 (Nat.mod_lt _ (by decide)))
        rw [hn] at this
        simpa using this
    · intro n e
      have := ok n
      rw [e] at this
      cases this
    · intro n b e
      have := ok n
      rw [e] at this
      cases this
    · intro n _ _
      exact ⟨46 + 18 * n + 3, tb, by omega, by rw [(at_ n 3 (by decide)).2]; exact ht'⟩
    · intro n _
      exact ⟨46 + 18 * n + 17, lb, by omega, hlb, by rw [(at_ n 17 (by decide)).2]; exact hlb'⟩
  · rintro n m q ⟨b, _, hb, _⟩ hq
    have h1 := ok b
    have hb : inMock (es b) = .conn 0 (.reqBegin m) () := hb
    have hb : es b = .mock (.conn 0 (.reqBegin m) ()) := by
      cases e : es b <;> rw [e] at hb
      · exact congrArg _ hb
      · cases hb
      · cases hb
    rw [hb] at h1
    simp only [servedOk, hq, decide_eq_true_eq] at h1
    obtain ⟨N, N1, N2⟩ := view n
    obtain ⟨l, _, hl⟩ := hE.run_from N1
    obtain ⟨l', hl', _⟩ := hl.sys.steps 0
    rw [N2] at hl'
    exact Room.before hl' h1
  · intro n b okb e
    have := ok n
    rw [e] at this
    simp only [servedOk, Bool.and_eq_true, decide_eq_true_eq] at this
    omega

set_option maxRecDepth 100000 in
/-- What the consumer sends. -/
theorem poll_asked : asked 0 (upTo servedRun.ev 46) = frame askFetch 7 ∧ asked 0 (upTo pollEv 18) = frame askNext 7 := by
  constructor <;> decide +kernel

/-- What the consumer receives. -/
def pollReply0 : Bytes := got 0 (upTo servedRun.ev 46)
def pollReply1 : Bytes := got 0 (upTo pollEv 18)

/-- In the response to the first Fetch: the record. -/
def polledFirst : Client.FetchedPartition := ⟨0, 0, 1, [⟨0, 36, 0x2a52149a, 1, 0, 0, none, some [1, 2]⟩]⟩
/-- In the responses to the later ones: nothing. -/
def polledNext : Client.FetchedPartition := ⟨0, 0, 1, []⟩

set_option maxRecDepth 100000 in
theorem poll_replies : (4 ≤ pollReply0.length ∧ be (pollReply0.take 4) = (pollReply0.drop 4).length ∧ pollReply0.length < 1000) ∧
    4 ≤ pollReply1.length ∧ be (pollReply1.take 4) = (pollReply1.drop 4).length ∧ pollReply1.length < 1000 := by decide +kernel

set_option synthInstance.maxSize 1000 in
set_option maxRecDepth 100000 in
theorem poll_reads : Client.response Client.fetch pollReply0 = some ((7, 0, [([116], [polledFirst])]), []) ∧ Client.response Client.fetch pollReply1 = some ((7, 0, [([116], [polledNext])]), []) := by
  constructor <;> decide +kernel

theorem upTo_served {es : Nat → NEv} (h1 : ∀ n, n < 46 → es n = servedRun.ev n) (n : Nat) (hn : n ≤ 46) : upTo es n = upTo servedRun.ev n :=
  List.map_congr_left fun m hm => h1 m (by have := List.mem_range.1 hm; omega)

theorem upTo_cycle {es : Nat → NEv} (h2 : ∀ n, 46 ≤ n → es n = pollEv ((n - 46) % 18)) (k : Nat) : upTo es (46 + 18 * (k + 1)) = upTo es (46 + 18 * k) ++ upTo pollEv 18 := by
  have : ∀ i, i ≤ 18 → upTo es (46 + 18 * k + i) = upTo es (46 + 18 * k) ++ upTo pollEv i := by
    intro i hi
    induction i with
    | zero => exact (List.append_nil _).symm
    | succ i ih => rw [← Nat.add_assoc, upTo_succ, ih (by omega), upTo_succ, List.append_assoc, h2 _ (by omega), show (46 + 18 * k + i - 46) % 18 = i by omega]
  rw [← this 18 (Nat.le_refl _)]
  rfl

theorem poll_sends {es : Nat → NEv} (h1 : ∀ n, n < 46 → es n = servedRun.ev n) (h2 : ∀ n, 46 ≤ n → es n = pollEv ((n - 46) % 18)) (k : Nat) :
    Framed (asked 0 (upTo es (46 + 18 * k))) (askFetch.message 7 (some [99]) :: List.replicate k (askNext.message 7 (some [99]))) := by
  induction k with
  | zero => rw [upTo_served h1 _ (Nat.le_refl _), poll_asked.1]; exact framed_of (w := frame askFetch 7) (by decide +kernel) (by decide +kernel)
  | succ k ih =>
    rw [upTo_cycle h2, asked_append, poll_asked.2, List.replicate_succ']
    exact framed_append ih (framed_of (w := frame askNext 7) (by decide +kernel) (by decide +kernel))

theorem poll_gets {es : Nat → NEv} (h1 : ∀ n, n < 46 → es n = servedRun.ev n) (h2 : ∀ n, 46 ≤ n → es n = pollEv ((n - 46) % 18)) (k : Nat) :
    Framed (got 0 (upTo es (46 + 18 * k))) (pollReply0.drop 4 :: List.replicate k (pollReply1.drop 4)) := by
  obtain ⟨⟨a, b, _⟩, c, d, _⟩ := poll_replies
  induction k with
  | zero => rw [upTo_served h1 _ (Nat.le_refl _)]; exact framed_of a b
  | succ k ih =>
    rw [upTo_cycle h2, got_append, List.replicate_succ']
    exact framed_append ih (framed_of c d)

/-- The responses that the consumer has received at any time. -/
theorem poll_got {es : Nat → NEv} (h1 : ∀ n, n < 46 → es n = servedRun.ev n) (h2 : ∀ n, 46 ≤ n → es n = pollEv ((n - 46) % 18)) {n i : Nat} {r : Bytes}
    (h : (frames (got 0 (upTo es n)))[i]? = some r) : r = if i = 0 then pollReply0.drop 4 else pollReply1.drop 4 := by
  obtain ⟨l, hl⟩ := upTo_le (es := es) (show n ≤ 46 + 18 * n by omega)
  obtain ⟨x, hx⟩ := frames_append (got 0 (upTo es n)) (got 0 l)
  have hg := C13_split (rest := []) (poll_gets h1 h2 n)
  have e0 : frames ([] : Bytes) = [] := rfl
  rw [List.append_nil, e0, List.append_nil] at hg
  rw [hl, got_append, ← hx] at hg
  have : ((frames (got 0 (upTo es n))) ++ x)[i]? = some r := by rw [List.getElem?_append_left (List.getElem?_eq_some_iff.1 h).1, h]
  rw [hg] at this
  cases i with
  | zero => rw [List.getElem?_cons_zero] at this; rw [if_pos rfl]; exact (Option.some.inj this).symm
  | succ i =>
    rw [if_neg (by omega)]
    rw [List.getElem?_cons_succ] at this
    exact List.eq_of_mem_replicate (List.mem_of_getElem? this)

/-- The messages in the responses. -/
def pollGets (i : Nat) : List MessageV1 := if i = 0 then polledFirst.messages else []

theorem pollGets_all (i : Nat) : (List.range (i + 1)).flatMap pollGets = polledFirst.messages := by
  induction i with
  | zero => rfl
  | succ i ih => rw [List.range_succ, List.flatMap_append, ih]; simp [pollGets]

set_option maxRecDepth 100000 in
theorem poll_fits : FitsBuffer askFetch 7 (some [99]) ∧ FitsBuffer askNext 7 (some [99]) := by
  unfold FitsBuffer; constructor <;> decide +kernel

set_option maxRecDepth 100000 in
theorem poll_consumes {es : Nat → NEv} (h1 : ∀ n, n < 46 → es n = servedRun.ev n) (h2 : ∀ n, 46 ≤ n → es n = pollEv ((n - 46) % 18)) : Consuming es 0 [116] 0 0 id pollGets := by
  have hid : ∀ x, some [99] = some x → ShortStr x := by intro x hx; cases hx; unfold ShortStr; decide
  obtain ⟨⟨a, b, _⟩, c, d, _⟩ := poll_replies
  obtain ⟨f0, f1⟩ := poll_fits
  refine ⟨fun i => Nat.lt_succ_self i, ?_⟩
  intro i
  have hfr := C13_split (rest := []) (poll_sends h1 h2 i)
  have e0 : frames ([] : Bytes) = [] := rfl
  rw [List.append_nil, e0, List.append_nil] at hfr
  cases i with
  | zero =>
    refine ⟨46 + 18 * 0, _, _, 7, some [99], 0, 1000, by rw [hfr]; rfl, accepted_proper askFetch_wf _ hid, f0, ?_, rfl, ?_⟩
    · intro t ht; cases ht with
      | head => exact ⟨_, rfl⟩
      | tail _ h => cases h
    · intro n r b' y fp hr hf hd hy
      have e := poll_got h1 h2 hr
      rw [if_pos (show id 0 = 0 from rfl)] at e
      subst e
      rw [framed_unique hf (framed_of a b), poll_reads.1] at hd
      cases hd
      cases hy
      rfl
  | succ i =>
    refine ⟨46 + 18 * (i + 1), askNext.message 7 (some [99]), _, 7, some [99], 0, 1000, ?_, accepted_proper askNext_wf _ hid, f1, ?_, ?_, ?_⟩
    · rw [hfr]
      show (List.replicate (i + 1) _)[i]? = _
      rw [List.getElem?_replicate, if_pos (Nat.lt_succ_self i)]
    · intro t ht; cases ht with
      | head => exact ⟨_, rfl⟩
      | tail _ h => cases h
    · rw [pollGets_all]; rfl
    · intro n r b' y fp hr hf hd hy
      have e := poll_got h1 h2 hr
      rw [if_neg (show ¬ id (i + 1) = 0 from Nat.succ_ne_zero i)] at e
      subst e
      rw [framed_unique hf (framed_of c d), poll_reads.2] at hd
      cases hd
      cases hy
      exact if_neg (Nat.succ_ne_zero i)

set_option maxRecDepth 100000 in
theorem poll_log : (((servedRun.st 46).sys.view 0).log firstPost.topic (BitVec.ofInt 32 firstPost.partition)).length = 1 := by decide +kernel

/-- The hypotheses of `C109`, `C109_progress` and `C109_all`: a record is posted, and a client fetches for ever; the first response has the record, the later ones have none. -/
theorem poll_case : ∃ (ns : Nat → Net) (es : Nat → NEv) (sa : Sys) (tc : List SEv), NetEndless ⟨9092, []⟩ 0 ns es ∧ CallRun sa 1 firstPost.call tc (ns 25).sys ∧ Working ns es 0 ∧
    RoomyOn (sysOf ns) (evOf es) 0 ∧ BelowLimit es 0 ∧ (∀ n (i : Nat) r, (frames (got 0 (upTo es n)))[i]? = some r → r.length + 4 < 2 ^ 31) ∧
    (∀ n t p, ∀ x ∈ ((ns n).sys.view 0).log t p, wireSize x < 2 ^ 31) ∧ Consuming es 0 firstPost.topic (BitVec.ofInt 32 firstPost.partition) 0 id pollGets ∧
    (∀ n, (0 : I64).toInt + (((ns n).sys.view 0).log firstPost.topic (BitVec.ofInt 32 firstPost.partition)).length < 2 ^ 63) ∧
    (∃ n, Polled (upTo es n) firstPost.topic (BitVec.ofInt 32 firstPost.partition) 0 (pollsUpTo 0 id pollGets 3)) ∧
    (∀ n, n ≤ 46 → ns n = servedRun.st n) ∧ (∀ n, n < 46 → es n = servedRun.ev n) ∧ (∀ n, 46 ≤ n → es n = pollEv ((n - 46) % 18)) ∧ ∀ n, 46 ≤ n → ns n = pollSt ((n - 46) % 18) := by
  obtain ⟨ns, es, h1, h2, h3, h4, h5, h6, h7, h8, h9⟩ := poll_endless
  have hc := poll_consumes h7 h8
  have later : ∀ n, ∀ t p, ∃ z, ((servedRun.st 46).sys.view 0).log t p = ((ns n).sys.view 0).log t p ++ z := by
    intro n
    obtain ⟨N, N1, N2⟩ := h5 n
    obtain ⟨l, _, hl⟩ := h1.run_from N1
    obtain ⟨l', hl', _⟩ := hl.sys.steps 0
    rw [N2] at hl'
    exact fun t p => ⟨_, hl'.log t p⟩
  have hroom : ∀ n t p, ∀ x ∈ ((ns n).sys.view 0).log t p, wireSize x < 2 ^ 31 := by
    intro n t p x hx
    obtain ⟨z, hz⟩ := later n t p
    exact served_records t p x (by rw [hz]; exact List.mem_append_left _ hx)
  have hlen : ∀ n (i : Nat) r, (frames (got 0 (upTo es n)))[i]? = some r → r.length + 4 < 2 ^ 31 := by
    intro n i r hr
    obtain ⟨⟨_, _, a⟩, _, _, b⟩ := poll_replies
    rw [poll_got h7 h8 hr]
    split <;> rw [List.length_drop] <;> omega
  refine ⟨ns, es, _, _, h1, by rw [h6 25 (by decide)]; exact served_post, h2, h3, h4, hlen, hroom, hc, ?_, C109_progress h1 h2 h3 h4 hlen hroom hc 3, h6, h7, h8, h9⟩
  intro n
  obtain ⟨z, hz⟩ := later n firstPost.topic (BitVec.ofInt 32 firstPost.partition)
  have := poll_log
  rw [hz, List.length_append] at this
  have e : (0 : I64).toInt = 0 := rfl
  omega

end KM.Props
