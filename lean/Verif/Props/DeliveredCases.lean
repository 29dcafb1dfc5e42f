import Verif.Props.Delivered
import Verif.Props.SeenCases
import Verif.Props.Live
/-
C108: an endless run that meets the hypotheses of `C108` and `C108_posts`.
-/
namespace KM.Props
open KM KM.Spec

/-! ### A connection on which nothing arrives -/

/-- A round of the loop of a connection that waits for a message: it looks whether it shall finish, and reads until the deadline (/repo/kafka-client.go:88-126). -/
theorem idle_round (sv : Server) : ∃ (g : Bool → Prog Unit) (f : Act.recv.Resp → Prog Unit), Prog.unroll ([] : Bytes) (handleBody sv) .ret = .act .isDone g ∧ g false = .act .recv f ∧
    f .timeout = .loop ([] : Bytes) (handleBody sv) .ret := ⟨_, _, rfl, rfl, rfl⟩

def idleEv : Nat → NEv
  | 0 => .mock (.unroll 0)
  | 1 => .mock (.conn 0 .isDone false)
  | _ => .mock (.conn 0 .recv .timeout)

/-- The state `n`, but for the program that connection 0 executes. -/
def withProg (n : Net) (k : ConnG) (p : Prog Unit) : Net := { n with sys := n.sys.setConn 0 { k with pc := .body p } }

theorem setView_same (s : Sys) (ctx : Nat) (h : s.isDone ctx = false) : s.setView ctx (s.view ctx) = s := by
  unfold Sys.setView Sys.view
  simp [h]

/-- From a state in which connection 0 waits for a message, the three steps lead back. -/
theorem idle_cycle {n : Net} {k : ConnG} {sv : Server} (hc : n.sys.conns[0]? = some k) (hp : k.pc = .body (.loop ([] : Bytes) (handleBody sv) .ret)) (hd : n.sys.isDone k.ctx = false) :
    ∃ x : Nat → Net, x 0 = n ∧ (∀ i, Net.Step (x (i % 3)) (idleEv (i % 3)) (x ((i + 1) % 3))) ∧
      ∀ i, ∃ p, x i = withProg n k p := by
  obtain ⟨g, f, h1, h2, h3⟩ := idle_round sv
  obtain ⟨kg, kn, kx, kp⟩ := k
  dsimp only at hp hd
  subst hp
  have e0 : withProg n ⟨kg, kn, kx, .body (.loop ([] : Bytes) (handleBody sv) .ret)⟩ (.loop ([] : Bytes) (handleBody sv) .ret) = n := by
    unfold withProg Sys.setConn
    have : n.sys.conns.set 0 ⟨kg, kn, kx, .body (.loop ([] : Bytes) (handleBody sv) .ret)⟩ = n.sys.conns := by
      obtain ⟨h, e⟩ := List.getElem?_eq_some_iff.1 hc
      rw [← e]; exact List.set_getElem_self h
    dsimp only
    rw [this]
  generalize hK : (⟨kg, kn, kx, .body (.loop ([] : Bytes) (handleBody sv) .ret)⟩ : ConnG) = K at e0
  have hc0 : n.sys.conns[0]? = some K := by rw [hc, hK]
  have hKx : K.ctx = kx := by rw [← hK]
  have hcs : ∀ p, (withProg n K p).sys.conns[0]? = some { K with pc := .body p } := by
    intro p
    exact List.getElem?_set_self (List.getElem?_eq_some_iff.1 hc0).1
  have put : ∀ p q, ((withProg n K p).sys.setConn 0 { K with pc := .body q }) = (withProg n K q).sys := by
    intro p q
    unfold withProg Sys.setConn
    dsimp only
    rw [List.set_set]
  have act : ∀ (p : Prog Unit) (a : Act) (f : a.Resp → Prog Unit) (r : a.Resp), p = .act a f → a.step ((withProg n K p).sys.view K.ctx) r ((withProg n K p).sys.view K.ctx) →
      Carries (.conn 0 a r) n.links n.links → Net.Step (withProg n K p) (.mock (.conn 0 a r)) (withProg n K (f r)) := by
    intro p a f r e hs hl
    have := Sys.Step.conn (s := (withProg n K p).sys) (hcs p) (show _ = ConnPc.body (.act a f) from congrArg ConnPc.body e) hs
    rw [setView_same _ _ (by rw [hKx]; exact hd)] at this
    have e2 := put p (f r)
    dsimp only at this e2
    rw [e2] at this
    exact .mock this hl
  refine ⟨fun i => match i with
    | 0 => withProg n K (.loop ([] : Bytes) (handleBody sv) .ret)
    | 1 => withProg n K (Prog.unroll ([] : Bytes) (handleBody sv) .ret)
    | _ => withProg n K (g false), e0, ?_, ?_⟩
  · intro i
    have : i % 3 < 3 := Nat.mod_lt _ (by decide)
    have e : (i + 1) % 3 = (i % 3 + 1) % 3 := by omega
    rw [e]
    generalize i % 3 = j at *
    match j, this with
    | 0, _ =>
      have := Sys.Step.unroll (s := (withProg n K (.loop ([] : Bytes) (handleBody sv) .ret)).sys) (hcs _) rfl
      have e2 := put (.loop ([] : Bytes) (handleBody sv) .ret) (Prog.unroll ([] : Bytes) (handleBody sv) .ret)
      dsimp only at this e2
      rw [e2] at this
      exact .mock this rfl
    | 1, _ => exact act (Prog.unroll ([] : Bytes) (handleBody sv) .ret) .isDone g false h1 ⟨rfl, by rw [hKx]; exact hd.symm⟩ rfl
    | 2, _ =>
      have := act (g false) .recv f .timeout h2 ⟨rfl, fun b hb => nomatch hb⟩ rfl
      rw [h3] at this
      exact this
  · intro i
    match i with
    | 0 => exact ⟨_, rfl⟩
    | 1 => exact ⟨_, rfl⟩
    | i + 2 => exact ⟨_, rfl⟩

/-! ### A record is posted, a client asks for it, the mock answers, the client receives the answer; then nothing happens any more -/

def served : List NPick := (starts 0 ++ opens 0 ++ accepts 0 ++ caller 1 postOne 6).map .mock ++
  [.send 0 (frame askFetch 7), .mock (.conn 0), .mock (.conn 0), .mock (.recv 0 (.data (frame askFetch 7)))] ++
  List.replicate 14 (.mock (.conn 0)) ++ [.receive 0 30, .receive 0 1000]

set_option maxRecDepth 100000 in
theorem served_plays : (Net.play served (Net.new ⟨9092, []⟩ 0)).isSome = true := by decide +kernel

def servedRun : NetTimeline ⟨9092, []⟩ 0 := netCourse served served_plays

set_option maxRecDepth 100000 in
theorem served_conn : ∃ k, (servedRun.st 46).sys.conns = [k] ∧ k.ctx = 0 ∧ k.pc = .body (.loop ([] : Bytes) (handleBody ⟨9092, []⟩) .ret) := ⟨_, rfl, rfl, rfl⟩

set_option maxRecDepth 100000 in
theorem served_api (i : Nat) : (servedRun.st 46).sys.api i = .idle := by
  match i with
  | 0 => rfl
  | 1 => rfl
  | i + 2 => rfl

set_option maxRecDepth 100000 in
theorem served_quiet : ((servedRun.st 46).sys.runs.all fun r => r.pc == .accept) = true ∧ (servedRun.st 46).sys.closes = [] ∧ (servedRun.st 46).sys.isDone 0 = false ∧
    ((servedRun.st 46).links 0).up = [] ∧ ((servedRun.st 46).links 0).down = [] := ⟨by decide +kernel, rfl, rfl, by decide +kernel, by decide +kernel⟩

/-- What is checked of a step of the first part. -/
def servedOk (s : Sys) : NEv → Bool
  | .mock (.conn 0 .recv .closed) => false
  | .mock (.conn 0 (.write b) ok) => ok && decide (b.length < 1000)
  | .mock (.conn _ (.reqBegin m) _) => match fetchAsked m with
    | some q => decide (Room (s.view 0) q)
    | none => true
  | _ => true

set_option maxRecDepth 100000 in
theorem served_ok : ((List.range 46).all fun n => servedOk (servedRun.st 46).sys (servedRun.ev n)) = true := by decide +kernel

set_option maxRecDepth 100000 in
theorem served_untold : ((List.range 46).all fun n => match (servedRun.st n).sys.conns[0]? with
    | some k => !(servedRun.st n).sys.isDone k.ctx
    | none => true) = true := by decide +kernel

set_option maxRecDepth 100000 in
theorem served_receives : ∃ b, b ≠ [] ∧ servedRun.ev 45 = .receive 0 b := ⟨_, by decide +kernel, rfl⟩

set_option maxRecDepth 100000 in
theorem served_records : ∀ t p, ∀ x ∈ ((servedRun.st 46).sys.view 0).log t p, wireSize x < 2 ^ 31 :=
  (roomy_of (k := 0) (tr := []) (s2 := (servedRun.st 46).sys) (by decide +kernel) (by decide)).records

/-- The run, without end. -/
theorem served_endless : ∃ (ns : Nat → Net) (es : Nat → NEv), NetEndless ⟨9092, []⟩ 0 ns es ∧ Working ns es 0 ∧ RoomyOn (sysOf ns) (evOf es) 0 ∧ BelowLimit es 0 ∧
    (∀ n t p, ∀ x ∈ ((ns n).sys.view 0).log t p, wireSize x < 2 ^ 31) ∧ (∀ n, n ≤ 46 → ns n = servedRun.st n) ∧ (∀ n, n < 46 → es n = servedRun.ev n) ∧
    ∀ n, 46 ≤ n → es n = idleEv ((n - 46) % 3) := by
  obtain ⟨k, hc, hk, hp⟩ := served_conn
  obtain ⟨r1, r2, r3, r4, r5⟩ := served_quiet
  have hapi := served_api
  have hrec := served_records
  obtain ⟨x, x0, xs, xp⟩ := idle_cycle (by rw [hc]; rfl) hp (by rw [hk]; exact r3)
  have hok := served_ok
  have hlast := fun n (hn : n < 46) => servedRun.step n hn
  have hfirst := servedRun.start
  have hun := served_untold
  obtain ⟨lb, hlb, hlb'⟩ := served_receives
  generalize servedRun.st = st at *
  generalize servedRun.ev = ev at *
  generalize hA : st 46 = A at *
  let ns : Nat → Net := fun n => if n < 46 then st n else x ((n - 46) % 3)
  let es : Nat → NEv := fun n => if n < 46 then ev n else idleEv ((n - 46) % 3)
  have lo : ∀ n, n < 46 → ns n = st n ∧ es n = ev n := fun n hn => ⟨if_pos hn, if_pos hn⟩
  have hi : ∀ n, 46 ≤ n → ns n = x ((n - 46) % 3) ∧ es n = idleEv ((n - 46) % 3) := fun n hn => ⟨if_neg (by omega), if_neg (by omega)⟩
  have hi' : ∀ n, 46 ≤ n → ∃ p, ns n = withProg A k p := fun n hn => by rw [(hi n hn).1]; exact xp _
  have hev : ∀ n, 46 ≤ n → es n = .mock (.unroll 0) ∨ es n = .mock (.conn 0 .isDone false) ∨ es n = .mock (.conn 0 .recv .timeout) := by
    intro n hn
    rw [(hi n hn).2]
    generalize (n - 46) % 3 = j
    match j with
    | 0 => exact .inl rfl
    | 1 => exact .inr (.inl rfl)
    | j + 2 => exact .inr (.inr rfl)
  have ok : ∀ n, servedOk A.sys (es n) = true := by
    intro n
    by_cases hn : n < 46
    · rw [(lo n hn).2]; exact List.all_eq_true.1 hok n (List.mem_range.2 hn)
    · rcases hev n (by omega) with e | e | e <;> rw [e] <;> rfl
  have step : ∀ n, Net.Step (ns n) (es n) (ns (n + 1)) := by
    intro n
    by_cases hn : n < 46
    · rw [(lo n hn).1, (lo n hn).2]
      have := hlast n hn
      by_cases hn' : n + 1 < 46
      · rw [(lo _ hn').1]; exact this
      · have e : n + 1 = 46 := by omega
        rw [(hi (n + 1) (by omega)).1, e]
        show Net.Step _ _ (x 0)
        rw [x0, ← hA, ← e]
        exact this
    · rw [(hi n (by omega)).1, (hi n (by omega)).2, (hi (n + 1) (by omega)).1]
      have := xs (n - 46)
      rwa [show n + 1 - 46 = n - 46 + 1 by omega]
  have view : ∀ n, ∃ m, n ≤ m ∧ (ns m).sys.view 0 = A.sys.view 0 := by
    intro n
    obtain ⟨p, hp⟩ := hi' (max n 46) (Nat.le_max_right ..)
    exact ⟨max n 46, Nat.le_max_left .., by rw [hp]; rfl⟩
  have hE : NetEndless ⟨9092, []⟩ 0 ns es := by
    refine ⟨by rw [(lo 0 (by decide)).1]; exact hfirst, step, ?_⟩
    intro t _ ht n
    obtain ⟨m, m1, m2⟩ := ht 46
    obtain ⟨p, hp⟩ := hi' m m1
    rw [hp] at m2
    cases t with
    | api i =>
      have m2 : ((A.sys.api i).ready _ : Prop) := m2
      rw [hapi] at m2
      cases m2
    | run g =>
      obtain ⟨r, a, b⟩ := m2
      have := List.all_eq_true.1 r1 r (List.mem_of_getElem? (show A.sys.runs[g]? = some r from a))
      have : r.pc = .accept := by simpa using this
      rw [this] at b
      have b : g ∈ A.sys.closes := b
      rw [r2] at b
      cases b
    | conn c =>
      obtain ⟨r, a, b⟩ := m2
      cases c with
      | zero =>
        refine ⟨46 + 3 * n, by omega, ?_⟩
        rw [(hi _ (by omega)).2, show 46 + 3 * n - 46 = 3 * n by omega, Nat.mul_mod_right]
        rfl
      | succ c =>
        have a : (A.sys.conns.set 0 { k with pc := .body p })[c + 1]? = some r := a
        rw [hc] at a
        cases a
  refine ⟨ns, es, hE, ?_, ?_, ?_, ?_, ?_, fun n hn => (lo n hn).2, fun n hn => (hi n hn).2⟩
  · refine ⟨⟨46, ?_⟩, ?_, ?_, ?_, ?_, ?_⟩
    · rw [(hi 46 (by omega)).1]
      show (x 0).sys.conns[0]? ≠ none
      rw [x0, hc]
      exact fun h => nomatch h
    · intro n c hn
      by_cases h : n < 46
      · rw [(lo n h).1] at hn ⊢
        have := List.all_eq_true.1 hun n (List.mem_range.2 h)
        rw [hn] at this
        simpa using this
      · obtain ⟨p, e⟩ := hi' n (by omega)
        rw [e] at hn ⊢
        have hn : (A.sys.conns.set 0 { k with pc := .body p })[0]? = some c := hn
        rw [hc] at hn
        cases hn
        show A.sys.isDone k.ctx = false
        rw [hk]; exact r3
    · intro n e
      have := ok n
      rw [e] at this
      cases this
    · intro n b e
      have := ok n
      rw [e] at this
      cases this
    · intro n h
      exfalso
      obtain ⟨p, e⟩ := hi' (max n 46) (Nat.le_max_right ..)
      have := h _ (Nat.le_max_left n 46)
      rw [e] at this
      exact this r4
    · intro n h
      by_cases hn : n < 46
      · exact ⟨45, lb, by omega, hlb, by rw [(lo 45 (by decide)).2]; exact hlb'⟩
      · obtain ⟨p, e⟩ := hi' n (by omega)
        rw [e] at h
        exact absurd r5 h
  · rintro n m q ⟨b, _, hb, _⟩ hq
    have h1 := ok b
    have hb : inMock (es b) = .conn 0 (.reqBegin m) () := hb
    have hb : es b = .mock (.conn 0 (.reqBegin m) ()) := by
      cases e : es b <;> rw [e] at hb
      · exact congrArg _ hb
      · cases hb
      · cases hb
    rw [hb] at h1
    simp only [servedOk, hq, decide_eq_true_eq] at h1
    obtain ⟨N, N1, N2⟩ := view n
    obtain ⟨l, _, hl⟩ := hE.run_from N1
    obtain ⟨l', hl', _⟩ := hl.sys.steps 0
    rw [N2] at hl'
    exact Room.before hl' h1
  · intro n b okb e
    have := ok n
    rw [e] at this
    simp only [servedOk, Bool.and_eq_true, decide_eq_true_eq] at this
    omega
  · intro n t p r hr
    obtain ⟨N, N1, N2⟩ := view n
    obtain ⟨l, _, hl⟩ := hE.run_from N1
    obtain ⟨l', hl', _⟩ := hl.sys.steps 0
    rw [N2] at hl'
    exact hrec t p r (by rw [hl'.log t p]; exact List.mem_append_left _ hr)
  · intro n hn
    by_cases h : n < 46
    · exact (lo n h).1
    · have e : n = 46 := by omega
      subst e
      rw [(hi 46 (by omega)).1, hA]
      exact x0

set_option maxRecDepth 100000 in
theorem served_replies : ((List.range 47).all fun n => (frames (got 0 (upTo servedRun.ev n))).all fun r => decide (r.length < 1000)) = true := by decide +kernel

set_option maxRecDepth 100000 in
theorem served_post : CallRun (servedRun.st 20).sys 1 firstPost.call (servedRun.mock.slice 21 25) (servedRun.st 25).sys :=
  call_in (H := servedRun.mock) 20 25 1 firstPost.call (by decide) (by decide) rfl rfl (by decide +kernel) rfl

set_option maxRecDepth 100000 in
theorem served_asked : (frames (asked 0 (upTo servedRun.ev 25))).length = 0 ∧ (frames (asked 0 (upTo servedRun.ev 27)))[0]? = some (askFetch.message 7 (some [99])) := by
  constructor <;> decide +kernel

/-- The hypotheses of `C108` and `C108_posts`: a caller has posted a record (steps 20 to 25), then a client sends a Fetch request (step 26). -/
example : ∃ (ns : Nat → Net) (es : Nat → NEv) (sa : Sys) (tc : List SEv), NetEndless ⟨9092, []⟩ 0 ns es ∧ CallRun sa 1 firstPost.call tc (ns 25).sys ∧ Working ns es 0 ∧
    RoomyOn (sysOf ns) (evOf es) 0 ∧ BelowLimit es 0 ∧ (∀ n (i : Nat) r, (frames (got 0 (upTo es n)))[i]? = some r → r.length + 4 < 2 ^ 31) ∧
    (∀ n t p, ∀ x ∈ ((ns n).sys.view 0).log t p, wireSize x < 2 ^ 31) ∧ (frames (asked 0 (upTo es 25))).length ≤ 0 ∧
    (frames (asked 0 (upTo es 27)))[0]? = some (askFetch.message 7 (some [99])) ∧ Accepted askFetch 7 (some [99]) (askFetch.message 7 (some [99])) ∧ FitsBuffer askFetch 7 (some [99]) := by
  obtain ⟨ns, es, h1, h2, h3, h4, h5, h6, h7, h8⟩ := served_endless
  have pre : ∀ n, n ≤ 46 → upTo es n = upTo servedRun.ev n := by
    intro n hn
    exact List.map_congr_left fun m hm => h7 m (by have := List.mem_range.1 hm; omega)
  have quiet : ∀ n, 46 ≤ n → got 0 (upTo es n) = got 0 (upTo es 46) := by
    intro n hn
    induction hn with
    | refl => rfl
    | @step n hn ih =>
      rw [upTo_succ, got_append, ih, h8 n hn]
      generalize (n - 46) % 3 = j
      match j with
      | 0 => exact List.append_nil _
      | 1 => exact List.append_nil _
      | j + 2 => exact List.append_nil _
  refine ⟨ns, es, _, _, h1, by rw [h6 25 (by decide)]; exact served_post, h2, h3, h4, ?_, h5, by rw [pre 25 (by decide), served_asked.1],
    by rw [pre 27 (by decide)]; exact served_asked.2, accepted_proper askFetch_wf _ ?_, ?_⟩
  · intro n i r hr
    have : ∃ n', n' ≤ 46 ∧ (frames (got 0 (upTo servedRun.ev n')))[i]? = some r := by
      by_cases hn : n ≤ 46
      · exact ⟨n, hn, by rw [← pre n hn]; exact hr⟩
      · exact ⟨46, Nat.le_refl _, by rw [← pre 46 (Nat.le_refl _), ← quiet n (by omega)]; exact hr⟩
    obtain ⟨n', a, b⟩ := this
    have := List.all_eq_true.1 (List.all_eq_true.1 served_replies n' (List.mem_range.2 (by omega))) r (List.mem_of_getElem? b)
    simp only [decide_eq_true_eq] at this
    omega
  · intro x hx; cases hx; unfold ShortStr; decide
  · unfold FitsBuffer; decide +kernel

end KM.Props
