import Verif.Props.Member
import Verif.Props.SmallCases
/-
C125: a run without end in which a member of a group asks for its assignment and then fetches for ever (made as in `DeliveredCases` and `PollsCases`).
-/
namespace KM.Props
open KM KM.Spec

/-- A record is posted; a client sends SyncGroup and receives the response; then it fetches the record. -/
def attend : List NPick := (starts 0 ++ opens 0 ++ accepts 0 ++ caller 1 postOne 6).map .mock ++
  [.send 0 (frame askSync 6), .mock (.conn 0), .mock (.conn 0), .mock (.recv 0 (.data (frame askSync 6)))] ++ List.replicate 9 (.mock (.conn 0)) ++ [.receive 0 1000] ++
  [.send 0 (frame askFetch 7), .mock (.conn 0), .mock (.conn 0), .mock (.recv 0 (.data (frame askFetch 7)))] ++
  List.replicate 14 (.mock (.conn 0)) ++ [.receive 0 1000]

set_option maxRecDepth 100000 in
theorem attend_plays : (Net.play attend (Net.new ⟨9092, []⟩ 0)).isSome = true := by decide +kernel

def attendRun : NetTimeline ⟨9092, []⟩ 0 := netCourse attend attend_plays

set_option maxRecDepth 100000 in
theorem attend_conn : ∃ k, (attendRun.st 59).sys.conns = [k] ∧ k.ctx = 0 ∧ k.pc = .body (.loop ([] : Bytes) (handleBody ⟨9092, []⟩) .ret) := ⟨_, rfl, rfl, rfl⟩

set_option maxRecDepth 100000 in
theorem attend_api (i : Nat) : (attendRun.st 59).sys.api i = .idle := by
  match i with
  | 0 => rfl
  | 1 => rfl
  | i + 2 => rfl

set_option maxRecDepth 100000 in
theorem attend_quiet : ((attendRun.st 59).sys.runs.all fun r => r.pc == .accept) = true ∧ (attendRun.st 59).sys.closes = [] ∧ (attendRun.st 59).sys.isDone 0 = false ∧
    ((attendRun.st 59).links 0).up = [] ∧ ((attendRun.st 59).links 0).down = [] := ⟨by decide +kernel, rfl, rfl, by decide +kernel, by decide +kernel⟩

set_option maxRecDepth 100000 in
theorem attend_ok : ((List.range 59).all fun n => servedOk (attendRun.st 59).sys (attendRun.ev n)) = true := by decide +kernel

set_option maxRecDepth 100000 in
theorem attend_untold : ((List.range 59).all fun n => match (attendRun.st n).sys.conns[0]? with
    | some k => !(attendRun.st n).sys.isDone k.ctx
    | none => true) = true := by decide +kernel

set_option maxRecDepth 100000 in
theorem attend_post : CallRun (attendRun.st 20).sys 1 firstPost.call (attendRun.mock.slice 21 25) (attendRun.st 25).sys :=
  call_in (H := attendRun.mock) 20 25 1 firstPost.call (by decide) (by decide) rfl rfl (by decide +kernel) rfl


def memberSt : Nat → Net := netStAt pollOnce (attendRun.st 59)
def memberEv : Nat → NEv := netEvAt pollOnce (attendRun.st 59)

set_option maxRecDepth 100000 in
theorem member_plays : (Net.play pollOnce (attendRun.st 59)).isSome = true := by decide +kernel

set_option maxRecDepth 100000 in
theorem member_conn : ∃ k, (memberSt 18).sys.conns = [k] ∧ k.pc = .body (.loop ([] : Bytes) (handleBody ⟨9092, []⟩) .ret) := ⟨_, rfl, rfl⟩

set_option maxRecDepth 100000 in
theorem member_quiet : ((List.range 18).all fun n => quietEv (memberEv n)) = true := by decide +kernel

theorem member_step (n : Nat) (hn : n < 18) : Net.Step (memberSt n) (memberEv n) (memberSt (n + 1)) := netAt_step _ _ member_plays n hn

/-- Only connection 0 is used. -/
def onZero : NEv → Bool
  | .mock (.conn c _ _) | .mock (.unroll c) | .send c _ | .receive c _ => c == 0
  | _ => false

set_option maxRecDepth 100000 in
theorem member_zero : ((List.range 18).all fun n => onZero (memberEv n)) = true := by decide +kernel

theorem onZero_step {n n' : Net} {e : NEv} (h : Net.Step n e n') (hq : onZero e = true) (d : Nat) : n'.links (d + 1) = n.links (d + 1) := by
  cases h with
  | @mock e s L h hl =>
    have other : ∀ (v : Link), setLink n.links 0 v (d + 1) = n.links (d + 1) := fun v => if_neg (Nat.succ_ne_zero d)
    show L (d + 1) = _
    unfold Carries at hl
    split at hl
    · next c b =>
      obtain rfl : c = 0 := by simpa [onZero] using hq
      obtain ⟨_, _, rest, _, rfl⟩ := hl
      exact other _
    · next c b =>
      obtain rfl : c = 0 := by simpa [onZero] using hq
      obtain ⟨_, rfl⟩ := hl
      exact other _
    · next c b =>
      obtain rfl : c = 0 := by simpa [onZero] using hq
      rcases hl with ⟨_, rfl⟩ | ⟨_, x, y, _, _, rfl⟩
      · rfl
      · exact other _
    · rw [hl.2]
    · rw [hl]
  | send c b =>
    obtain rfl : c = 0 := by simpa [onZero] using hq
    simp [setLink]
  | @receive c b rest h =>
    obtain rfl : c = 0 := by simpa [onZero] using hq
    simp [setLink]

theorem member_others (n d : Nat) (hn : n ≤ 18) : (memberSt n).links (d + 1) = (attendRun.st 59).links (d + 1) := by
  have h0 : memberSt 0 = attendRun.st 59 := rfl
  induction n with
  | zero => rw [h0]
  | succ n ih => rw [onZero_step (member_step n hn) (List.all_eq_true.1 member_zero n (List.mem_range.2 hn)), ih (by omega)]

theorem member_still (n : Nat) (hn : n ≤ 18) : (memberSt n).sys.api = (attendRun.st 59).sys.api ∧ (memberSt n).sys.runs = (attendRun.st 59).sys.runs ∧ (memberSt n).sys.closes = (attendRun.st 59).sys.closes ∧
    (memberSt n).sys.conns.length = (attendRun.st 59).sys.conns.length ∧ (memberSt n).sys.sv = (attendRun.st 59).sys.sv := by
  have h0 : memberSt 0 = attendRun.st 59 := rfl
  induction n with
  | zero => rw [h0]; exact ⟨rfl, rfl, rfl, rfl, rfl⟩
  | succ n ih =>
    obtain ⟨i1, i2, i3, i4, i5⟩ := ih (by omega)
    obtain ⟨j1, j2, j3, j4, j5⟩ := quiet_step (member_step n hn) (List.all_eq_true.1 member_quiet n (List.mem_range.2 hn))
    exact ⟨j1.trans i1, j2.trans i2, j3.trans i3, j4.trans i4, j5.trans i5⟩

set_option synthInstance.maxSize 1000 in
set_option maxRecDepth 100000 in
theorem member_same : ((memberSt 18).sys.mu = (attendRun.st 59).sys.mu ∧ (memberSt 18).sys.started = (attendRun.st 59).sys.started ∧ (memberSt 18).sys.stopped = (attendRun.st 59).sys.stopped ∧
    (memberSt 18).sys.listener = (attendRun.st 59).sys.listener ∧ (memberSt 18).sys.ctx = (attendRun.st 59).sys.ctx ∧ (memberSt 18).sys.cancels = (attendRun.st 59).sys.cancels ∧
    (memberSt 18).sys.done = (attendRun.st 59).sys.done ∧ (memberSt 18).sys.parentDone = (attendRun.st 59).sys.parentDone) ∧ (memberSt 18).sys.wg = (attendRun.st 59).sys.wg ∧
    (memberSt 18).sys.active = (attendRun.st 59).sys.active ∧ (memberSt 18).sys.init = (attendRun.st 59).sys.init ∧ (memberSt 18).sys.clients = (attendRun.st 59).sys.clients ∧
    (memberSt 18).sys.ds = (attendRun.st 59).sys.ds ∧ (memberSt 18).sys.clock = (attendRun.st 59).sys.clock ∧
    (memberSt 18).sys.conns.map (fun k => (k.gen, k.num, k.ctx)) = (attendRun.st 59).sys.conns.map fun k => (k.gen, k.num, k.ctx) := by
  refine ⟨⟨?_, ?_, ?_, ?_, ?_, ?_, ?_, ?_⟩, ?_, ?_, ?_, ?_, ?_, ?_, ?_⟩ <;> decide +kernel

set_option maxRecDepth 100000 in
/-- After that everything is as before. -/
theorem member_back : memberSt 18 = memberSt 0 := by
  have h2 : (memberSt 18).links = (attendRun.st 59).links := by
    funext d
    match d with
    | 0 => decide +kernel
    | d + 1 => exact member_others 18 d (Nat.le_refl _)
  obtain ⟨a1, a2, a3, _, a4⟩ := member_still 18 (Nat.le_refl _)
  obtain ⟨k, b1, b2⟩ := member_conn
  obtain ⟨k', c1, _, c2⟩ := attend_conn
  obtain ⟨d1, d2⟩ := member_same
  show memberSt 18 = attendRun.st 59
  generalize memberSt 18 = a at *
  generalize attendRun.st 59 = b at *
  obtain ⟨⟨⟨_, _⟩, _, _, _, _, _, _, _, _, _, _, _, _, _, _, _, _, _, _⟩, _⟩ := a
  obtain ⟨⟨⟨_, _⟩, _, _, _, _, _, _, _, _, _, _, _, _, _, _, _, _, _, _⟩, _⟩ := b
  obtain ⟨_, _, _, _⟩ := k
  obtain ⟨_, _, _, _⟩ := k'
  dsimp only at *
  subst b1 c1
  simp only [Prod.mk.injEq, List.map_cons, List.map_nil, List.cons.injEq] at d1 d2
  simp_all

set_option maxRecDepth 100000 in
theorem member_ok : ((List.range 18).all fun n => servedOk (attendRun.st 59).sys (memberEv n)) = true := by decide +kernel

set_option maxRecDepth 100000 in
theorem member_untold : ((List.range 18).all fun n => match (memberSt n).sys.conns[0]? with
    | some k => !(memberSt n).sys.isDone k.ctx
    | none => true) = true := by decide +kernel

set_option maxRecDepth 100000 in
theorem member_receives : ∃ b, b ≠ [] ∧ memberEv 17 = .receive 0 b := ⟨_, by decide +kernel, rfl⟩

set_option maxRecDepth 100000 in
theorem member_takes : (inMock (memberEv 1)).of = some (.conn 0) ∧ ∃ b, memberEv 3 = .mock (.conn 0 .recv (.data b)) := ⟨rfl, _, rfl⟩

/-- The run, without end. -/
theorem member_endless : ∃ (ns : Nat → Net) (es : Nat → NEv), NetEndless ⟨9092, []⟩ 0 ns es ∧ Working ns es 0 ∧ RoomyOn (sysOf ns) (evOf es) 0 ∧ BelowLimit es 0 ∧
    (∀ n, ∃ m, n ≤ m ∧ (ns m).sys.view 0 = (attendRun.st 59).sys.view 0) ∧ (∀ n, n ≤ 59 → ns n = attendRun.st n) ∧ (∀ n, n < 59 → es n = attendRun.ev n) ∧
    (∀ n, 59 ≤ n → es n = memberEv ((n - 59) % 18)) ∧ ∀ n, 59 ≤ n → ns n = memberSt ((n - 59) % 18) := by
  obtain ⟨k, hc, hk, hp⟩ := attend_conn
  obtain ⟨r1, r2, r3, r4, r5⟩ := attend_quiet
  have hapi := attend_api
  have hok := attend_ok
  have hok' := member_ok
  have hlast := fun n (hn : n < 59) => attendRun.step n hn
  have hfirst := attendRun.start
  have hun := attend_untold
  have hun' := member_untold
  have hstill := member_still
  have hback := member_back
  have hstep := member_step
  obtain ⟨ht, tb, ht'⟩ := member_takes
  obtain ⟨lb, hlb, hlb'⟩ := member_receives
  have h0 : memberSt 0 = attendRun.st 59 := rfl
  generalize attendRun.st = st at *
  generalize attendRun.ev = ev at *
  generalize memberSt = x at *
  generalize memberEv = xe at *
  obtain ⟨ns, es, step, lo, loe, hi⟩ := cycled (pre := st) (x := x) (pev := ev) (ev := xe) (N := 59) (L := 18) (by decide) hlast h0 hback hstep
  have at_ : ∀ n i, i < 18 → ns (59 + 18 * n + i) = x i ∧ es (59 + 18 * n + i) = xe i := by
    intro n i hi'
    have := hi (59 + 18 * n + i) (by omega)
    rwa [show (59 + 18 * n + i - 59) % 18 = i by omega] at this
  have ok : ∀ n, servedOk (st 59).sys (es n) = true := by
    intro n
    by_cases hn : n < 59
    · rw [loe n hn]; exact List.all_eq_true.1 hok n (List.mem_range.2 hn)
    · rw [(hi n (by omega)).2]; exact List.all_eq_true.1 hok' _ (List.mem_range.2 (Nat.mod_lt _ (by decide)))
  have view : ∀ n, ∃ m, n ≤ m ∧ (ns m).sys.view 0 = (st 59).sys.view 0 :=
    fun n => ⟨59 + 18 * n + 0, by omega, by rw [(at_ n 0 (by decide)).1, h0]⟩
  have hE : NetEndless ⟨9092, []⟩ 0 ns es := by
    refine ⟨by rw [lo 0 (by decide)]; exact hfirst, step, ?_⟩
    intro t _ ht2 n
    obtain ⟨m, m1, m2⟩ := ht2 59
    obtain ⟨s1, s2, s3, s4, _⟩ := hstill ((m - 59) % 18) (by omega)
    rw [← (hi m m1).1] at s1 s2 s3 s4
    cases t with
    | api i =>
      have m2 : (((ns m).sys.api i).ready _ : Prop) := m2
      rw [s1, hapi] at m2
      cases m2
    | run g =>
      obtain ⟨r, a, b⟩ := m2
      rw [s2] at a
      have := List.all_eq_true.1 r1 r (List.mem_of_getElem? a)
      have : r.pc = .accept := by simpa using this
      rw [this] at b
      have b : g ∈ (ns m).sys.closes := b
      rw [s3, r2] at b
      cases b
    | conn c =>
      obtain ⟨r, a, b⟩ := m2
      cases c with
      | zero => exact ⟨59 + 18 * n + 1, by omega, by rw [(at_ n 1 (by decide)).2]; exact ht⟩
      | succ c =>
        have := (List.getElem?_eq_some_iff.1 a).1
        rw [s4, hc] at this
        simp at this
  refine ⟨ns, es, hE, ?_, ?_, ?_, view, lo, loe, fun n hn => (hi n hn).2, fun n hn => (hi n hn).1⟩
  · refine ⟨⟨59, ?_⟩, ?_, ?_, ?_, ?_, ?_⟩
    · rw [lo 59 (by omega), hc]
      exact fun h => nomatch h
    · intro n c hn
      by_cases h : n < 59
      · rw [lo n (by omega)] at hn ⊢
        have := List.all_eq_true.1 hun n (List.mem_range.2 h)
        rw [hn] at this
        simpa using this
      · rw [(hi n (by omega)).1] at hn ⊢
        have := List.all_eq_true.1 hun' ((n - 59) % 18) (List.mem_range.2 (Nat.mod_lt _ (by decide)))
        rw [hn] at this
        simpa using this
    · intro n e
      have := ok n
      rw [e] at this
      cases this
    · intro n b e
      have := ok n
      rw [e] at this
      cases this
    · intro n _ _
      exact ⟨59 + 18 * n + 3, tb, by omega, by rw [(at_ n 3 (by decide)).2]; exact ht'⟩
    · intro n _
      exact ⟨59 + 18 * n + 17, lb, by omega, hlb, by rw [(at_ n 17 (by decide)).2]; exact hlb'⟩
  · rintro n m q ⟨b, _, hb, _⟩ hq
    have h1 := ok b
    have hb : inMock (es b) = .conn 0 (.reqBegin m) () := hb
    have hb : es b = .mock (.conn 0 (.reqBegin m) ()) := by
      cases e : es b <;> rw [e] at hb
      · exact congrArg _ hb
      · cases hb
      · cases hb
    rw [hb] at h1
    simp only [servedOk, hq, decide_eq_true_eq] at h1
    obtain ⟨N, N1, N2⟩ := view n
    obtain ⟨l, _, hl⟩ := hE.run_from N1
    obtain ⟨l', hl', _⟩ := hl.sys.steps 0
    rw [N2] at hl'
    exact Room.before hl' h1
  · intro n b okb e
    have := ok n
    rw [e] at this
    simp only [servedOk, Bool.and_eq_true, decide_eq_true_eq] at this
    omega

set_option maxRecDepth 100000 in
/-- What the consumer sends. -/
theorem member_asked : asked 0 (upTo attendRun.ev 59) = frame askSync 6 ++ frame askFetch 7 ∧ asked 0 (upTo memberEv 18) = frame askNext 7 := by
  constructor <;> decide +kernel

theorem upTo_attend {es : Nat → NEv} (h1 : ∀ n, n < 59 → es n = attendRun.ev n) (n : Nat) (hn : n ≤ 59) : upTo es n = upTo attendRun.ev n :=
  List.map_congr_left fun m hm => h1 m (by have := List.mem_range.1 hm; omega)

theorem upTo_member {es : Nat → NEv} (h2 : ∀ n, 59 ≤ n → es n = memberEv ((n - 59) % 18)) (k : Nat) : upTo es (59 + 18 * (k + 1)) = upTo es (59 + 18 * k) ++ upTo memberEv 18 := by
  have : ∀ i, i ≤ 18 → upTo es (59 + 18 * k + i) = upTo es (59 + 18 * k) ++ upTo memberEv i := by
    intro i hi
    induction i with
    | zero => exact (List.append_nil _).symm
    | succ i ih => rw [← Nat.add_assoc, upTo_succ, ih (by omega), upTo_succ, List.append_assoc, h2 _ (by omega), show (59 + 18 * k + i - 59) % 18 = i by omega]
  rw [← this 18 (Nat.le_refl _)]
  rfl

theorem member_sends {es : Nat → NEv} (h1 : ∀ n, n < 59 → es n = attendRun.ev n) (h2 : ∀ n, 59 ≤ n → es n = memberEv ((n - 59) % 18)) (k : Nat) :
    Framed (asked 0 (upTo es (59 + 18 * k))) (askSync.message 6 (some [99]) :: askFetch.message 7 (some [99]) :: List.replicate k (askNext.message 7 (some [99]))) := by
  induction k with
  | zero =>
    rw [upTo_attend h1 _ (Nat.le_refl _), member_asked.1]
    exact framed_append (framed_of (w := frame askSync 6) (by decide +kernel) (by decide +kernel)) (framed_of (w := frame askFetch 7) (by decide +kernel) (by decide +kernel))
  | succ k ih =>
    rw [upTo_member h2, asked_append, member_asked.2, List.replicate_succ']
    exact framed_append ih (framed_of (w := frame askNext 7) (by decide +kernel) (by decide +kernel))

/-- What the member receives. -/
def memberShare : Bytes := got 0 (upTo attendRun.ev 40)
def memberReply0 : Bytes := (got 0 (upTo attendRun.ev 59)).drop memberShare.length
def memberReply1 : Bytes := got 0 (upTo memberEv 18)

set_option maxRecDepth 100000 in
theorem member_replies : got 0 (upTo attendRun.ev 59) = memberShare ++ memberReply0 ∧ (4 ≤ memberShare.length ∧ be (memberShare.take 4) = (memberShare.drop 4).length) ∧
    memberReply0 = pollReply0 ∧ memberReply1 = pollReply1 := by decide +kernel

set_option synthInstance.maxSize 1000 in
set_option maxRecDepth 100000 in
theorem member_reads : Client.response Client.syncGroup memberShare = some ((6, 0, 1, [([116], [0])], none), []) := by decide +kernel

theorem member_gets {es : Nat → NEv} (h1 : ∀ n, n < 59 → es n = attendRun.ev n) (h2 : ∀ n, 59 ≤ n → es n = memberEv ((n - 59) % 18)) (k : Nat) :
    Framed (got 0 (upTo es (59 + 18 * k))) (memberShare.drop 4 :: pollReply0.drop 4 :: List.replicate k (pollReply1.drop 4)) := by
  obtain ⟨⟨a, b, _⟩, c, d, _⟩ := poll_replies
  obtain ⟨m1, ⟨m2, m3⟩, m4, m5⟩ := member_replies
  induction k with
  | zero =>
    rw [upTo_attend h1 _ (Nat.le_refl _), m1, m4]
    exact framed_append (framed_of m2 m3) (framed_of a b)
  | succ k ih =>
    rw [upTo_member h2, got_append, List.replicate_succ', show got 0 (upTo memberEv 18) = pollReply1 from m5]
    exact framed_append ih (framed_of c d)

/-- The responses that the member has received at any time. -/
theorem member_got {es : Nat → NEv} (h1 : ∀ n, n < 59 → es n = attendRun.ev n) (h2 : ∀ n, 59 ≤ n → es n = memberEv ((n - 59) % 18)) {n i : Nat} {r : Bytes}
    (h : (frames (got 0 (upTo es n)))[i]? = some r) : r = if i = 0 then memberShare.drop 4 else if i = 1 then pollReply0.drop 4 else pollReply1.drop 4 := by
  obtain ⟨l, hl⟩ := upTo_le (es := es) (show n ≤ 59 + 18 * n by omega)
  obtain ⟨x, hx⟩ := frames_append (got 0 (upTo es n)) (got 0 l)
  have hg := C13_split (rest := []) (member_gets h1 h2 n)
  have e0 : frames ([] : Bytes) = [] := rfl
  rw [List.append_nil, e0, List.append_nil] at hg
  rw [hl, got_append, ← hx] at hg
  have : ((frames (got 0 (upTo es n))) ++ x)[i]? = some r := by rw [List.getElem?_append_left (List.getElem?_eq_some_iff.1 h).1, h]
  rw [hg] at this
  clear hg hx
  generalize memberShare.drop 4 = A at *
  generalize pollReply0.drop 4 = B at *
  generalize pollReply1.drop 4 = C at *
  match i with
  | 0 => rw [List.getElem?_cons_zero] at this; rw [if_pos rfl]; exact (Option.some.inj this).symm
  | 1 => rw [List.getElem?_cons_succ, List.getElem?_cons_zero] at this; rw [if_neg (by decide), if_pos rfl]; exact (Option.some.inj this).symm
  | i + 2 =>
    rw [if_neg (by omega), if_neg (by omega)]
    rw [List.getElem?_cons_succ, List.getElem?_cons_succ] at this
    exact List.eq_of_mem_replicate (List.mem_of_getElem? this)

set_option maxRecDepth 100000 in
theorem member_consumes {es : Nat → NEv} (h1 : ∀ n, n < 59 → es n = attendRun.ev n) (h2 : ∀ n, 59 ≤ n → es n = memberEv ((n - 59) % 18)) : Consuming es 0 [116] 0 0 (· + 1) pollGets := by
  have hid : ∀ x, some [99] = some x → ShortStr x := by intro x hx; cases hx; unfold ShortStr; decide
  obtain ⟨⟨a, b, _⟩, c, d, _⟩ := poll_replies
  obtain ⟨f0, f1⟩ := poll_fits
  refine ⟨fun i => Nat.lt_succ_self _, ?_⟩
  intro i
  have hfr := C13_split (rest := []) (member_sends h1 h2 i)
  have e0 : frames ([] : Bytes) = [] := rfl
  rw [List.append_nil, e0, List.append_nil] at hfr
  cases i with
  | zero =>
    refine ⟨59 + 18 * 0, _, _, 7, some [99], 0, 1000, by rw [hfr]; rfl, accepted_proper askFetch_wf _ hid, f0, ?_, rfl, ?_⟩
    · intro t ht; cases ht with
      | head => exact ⟨_, rfl⟩
      | tail _ h => cases h
    · intro n r b' y fp hr hf hd hy
      have e := member_got h1 h2 hr
      rw [if_neg (by omega), if_pos rfl] at e
      subst e
      rw [framed_unique hf (framed_of a b), poll_reads.1] at hd
      cases hd
      cases hy
      rfl
  | succ i =>
    refine ⟨59 + 18 * (i + 1), askNext.message 7 (some [99]), _, 7, some [99], 0, 1000, ?_, accepted_proper askNext_wf _ hid, f1, ?_, ?_, ?_⟩
    · rw [hfr]
      show (List.replicate (i + 1) _)[i]? = _
      rw [List.getElem?_replicate, if_pos (Nat.lt_succ_self i)]
    · intro t ht; cases ht with
      | head => exact ⟨_, rfl⟩
      | tail _ h => cases h
    · rw [pollGets_all]; rfl
    · intro n r b' y fp hr hf hd hy
      have e := member_got h1 h2 hr
      rw [if_neg (by omega), if_neg (by omega)] at e
      subst e
      rw [framed_unique hf (framed_of c d), poll_reads.2] at hd
      cases hd
      cases hy
      exact if_neg (Nat.succ_ne_zero i)

set_option maxRecDepth 100000 in
theorem member_little : Little 1000 ⟨9092, []⟩ ((attendRun.st 59).sys.view 0) ∧ (((attendRun.st 59).sys.view 0).ds.all fun x => decide (x.1.length ≤ 100)) = true :=
  ⟨little_of (by decide +kernel) (by decide +kernel) (by decide), by decide +kernel⟩

set_option maxRecDepth 100000 in
theorem member_share : fetchAsked (askSync.message 6 (some [99])) = none ∧ FitsBuffer askSync 6 (some [99]) ∧ (frames (asked 0 (upTo attendRun.ev 25))).length = 0 ∧
    (Store.part? ((attendRun.st 25).sys.view 0).ds [116] 0).isSome = true := by
  refine ⟨by decide +kernel, ?_, by decide +kernel, by decide +kernel⟩
  unfold FitsBuffer; decide +kernel

/-- The hypotheses of `C125_receives_partial`: a record is posted; then a client asks for its assignment, is assigned the partition, and fetches for ever. -/
theorem member_case : ∃ (ns : Nat → Net) (es : Nat → NEv) (sa : Sys) (tc : List SEv), NetEndless ⟨9092, []⟩ 0 ns es ∧ (∀ n, Little 1000 ⟨9092, []⟩ ((ns n).sys.view 0)) ∧
    (∀ n t, ((ns n).sys.view 0).hasTopic t → ShortStr t) ∧ Working ns es 0 ∧ Ample 1000 es 0 ∧ CallRun sa 1 firstPost.call tc (ns 25).sys ∧
    Attending es 0 0 [([116], [0])] (fun _ _ => 0) (fun _ _ => 0) (fun _ _ => (· + 1)) (fun _ _ => pollGets) ∧
    (frames (asked 0 (upTo es 25))).length ≤ 0 ∧ ((ns 25).sys.view 0).hasPartition firstPost.topic (BitVec.ofInt 32 firstPost.partition) := by
  obtain ⟨ns, es, h1, h2, h3, h4, h5, h6, h7, h8, h9⟩ := member_endless
  have e0 : frames ([] : Bytes) = [] := rfl
  have hid : ∀ x, some [99] = some x → ShortStr x := by intro x hx; cases hx; unfold ShortStr; decide
  obtain ⟨s1, s2, s3, s4⟩ := member_share
  obtain ⟨l1, l2⟩ := member_little
  have hfr : ∀ k, frames (asked 0 (upTo es (59 + 18 * k))) = askSync.message 6 (some [99]) :: askFetch.message 7 (some [99]) :: List.replicate k (askNext.message 7 (some [99])) := by
    intro k
    have hfr := C13_split (rest := []) (member_sends h7 h8 k)
    rwa [List.append_nil, e0, List.append_nil] at hfr
  have later : ∀ n, ∃ l, Steps ((ns n).sys.view 0) l ((attendRun.st 59).sys.view 0) := by
    intro n
    obtain ⟨N, N1, N2⟩ := h5 n
    obtain ⟨l, _, hl⟩ := h1.run_from N1
    obtain ⟨l', hl', _⟩ := hl.sys.steps 0
    rw [N2] at hl'
    exact ⟨_, hl'⟩
  refine ⟨ns, es, _, _, h1, ?_, ?_, h2, ?_, by rw [h6 25 (by decide)]; exact attend_post, ⟨⟨59 + 18 * 0, _, [103], [109], 1, 6, some [99], by rw [hfr 0]; rfl, accepted_proper askSync_wf _ hid, s2, ?_⟩, ?_⟩, ?_, ?_⟩
  · intro n
    obtain ⟨l', hl'⟩ := later n
    obtain ⟨hist, hreach, _⟩ := reachedBy (h1.run n).sys 0
    exact ⟨fun t p => Nat.le_trans (logBytes_mono hl' t p) (l1.logs t p), Nat.lt_of_le_of_lt (assignmentBytes_mono hreach.nodup hl') l1.names, l1.versions⟩
  · intro n t ht
    obtain ⟨l', hl'⟩ := later n
    have ht := hl'.hasTopic ht
    have ht : t ∈ GoMap.keys ((attendRun.st 59).sys.view 0).ds := (GoMap.mem_keys_iff _ _).2 ht
    obtain ⟨x, x1, rfl⟩ := List.mem_map.1 ht
    exact shortStr (of_decide_eq_true (List.all_eq_true.1 l2 x x1))
  · intro n i m q hm
    obtain ⟨l, hl⟩ := upTo_le (es := es) (show n ≤ 59 + 18 * n by omega)
    obtain ⟨x, hx⟩ := frames_append (asked 0 (upTo es n)) (asked 0 l)
    have hg := hfr n
    rw [hl, asked_append, ← hx] at hg
    have hmem : m ∈ frames (asked 0 (upTo es n)) ++ x := List.mem_append_left _ (List.mem_of_getElem? hm)
    rw [hg] at hmem
    rcases List.mem_cons.1 hmem with rfl | h
    · intro hq; rw [s1] at hq; cases hq
    · rcases List.mem_cons.1 h with rfl | h
      · exact poll_ample.1 q
      · rw [List.eq_of_mem_replicate h]; exact poll_ample.2 q
  · intro n r b ts' hr hf hd
    have e : r = memberShare.drop 4 := (member_got h7 h8 hr).trans (if_pos rfl)
    rw [e] at hf
    obtain ⟨_, ⟨m2, m3⟩, _⟩ := member_replies
    rw [framed_unique hf (framed_of m2 m3), member_reads] at hd
    cases hd
    rfl
  · intro x hx p hp
    cases hx with
    | head =>
      cases hp with
      | head => exact member_consumes h7 h8
      | tail _ h => cases h
    | tail _ h => cases h
  · rw [upTo_attend h7 _ (by decide), s3]
  · rw [h6 25 (by decide)]
    exact s4

end KM.Props
