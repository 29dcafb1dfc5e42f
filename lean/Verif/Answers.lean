import Verif.Room
import Verif.Props.Conn
import Verif.Props.WindDown
/-
What a connection has read is served (fair scheduler, room for every Fetch).
-/
namespace KM
open Spec

variable {sv : Server} {clock : Int} {ss : Nat → Sys} {es : Nat → SEv}

/-- At time `n` connection `c` is at the head of its loop, with `inb` unprocessed. -/
def AtHead (sv : Server) (ss : Nat → Sys) (c n : Nat) (inb : Bytes) : Prop :=
  ∃ k, (ss n).conns[c]? = some k ∧ k.pc = .body (.loop inb (handleBody sv) .ret)

/-- At time `n` connection `c` has left its loop. -/
def Left (ss : Nat → Sys) (c n : Nat) : Prop := ∃ k, (ss n).conns[c]? = some k ∧ ∀ p, k.pc ≠ .body p

/-- Step `n` reads from connection `c` or closes it. -/
def OuterAt (es : Nat → SEv) (c n : Nat) : Prop := ∃ (a : Act) (r : a.Resp), es n = .conn c a r ∧ (a = .recv ∨ a = .close)

/-- A complete message is processed; then the connection is at the head of its loop again. -/
theorem Endless.message (h : Endless sv clock ss es F) {c n : Nat} {inb m : Bytes} (hr : RoomyOn ss es c) (hh : AtHead sv ss c n inb) (hm : getMessage inb = .ready m) (hF : F (.conn c) := by first | exact trivial | assumption) :
    ∃ n', n < n' ∧ AtHead sv ss c n' (inb.drop (4 + m.length)) := by
  obtain ⟨k, hk, hp⟩ := hh
  obtain ⟨n1, a1, a2⟩ := h.conn_loop hk hp
  have hu : Prog.unroll inb (handleBody sv) Prog.ret = .act (.reqBegin m) fun _ => (dispatcher sv ⟨m⟩ m.length).bind fun res =>
      .act .reqEnd fun _ => (match res with | .err => Prog.panic | .done => Prog.ret (Sum.inl (inb.drop (4 + m.length)))).bind (Prog.next (handleBody sv) .ret) := by
    show (handleBody sv inb).bind (Prog.next (handleBody sv) .ret) = _
    conv => lhs; arg 1; unfold handleBody; rw [hm]
    simp only [Prog.bind_act, Prog.bind_assoc]
    congr
  rw [hu] at a2
  obtain ⟨b, r, b1, _, b2, b3⟩ := h.conn_act a2 rfl
  obtain ⟨i, i1, i2, i3⟩ := h.lays_down hr b2
  obtain ⟨l, x, c1, c2, _⟩ := h.in_service b3 rfl (fun res => ⟨_, rfl⟩) (i - (b + 1)) (fun j j1 j2 => i3 j (by omega) (by omega))
  rw [show b + 1 + (i - (b + 1)) = i by omega] at c1
  have hst := h.step i
  rw [i2] at hst
  obtain ⟨k', f, d1, d2, d3⟩ := step_conn_acts hst
  rw [c1] at d1; cases d1
  have ho := (c2.own.only (dispatcher_onlyInner sv _ _)).1
  cases x with
  | panic => cases d2
  | loop => cases d2
  | act a g => simp only [Prog.bind_act] at d2; cases d2; exact ho.1.elim
  | ret res =>
    simp only [Prog.bind_ret] at d2
    cases d2
    cases res with
    | err => exact (h.conn_panic d3 rfl).elim
    | done => exact ⟨i + 1, by omega, _, d3, rfl⟩

/-- Without a complete message, the connection reads or closes; then it is at the head of its loop again, or has left it. -/
theorem Endless.reads (h : Endless sv clock ss es F) {c n : Nat} {inb : Bytes} (hh : AtHead sv ss c n inb) (hm : getMessage inb = .none) (hF : F (.conn c) := by first | exact trivial | assumption) :
    ∃ j, n ≤ j ∧ OuterAt es c j ∧ ∃ j', j < j' ∧ ((∃ inb', AtHead sv ss c j' inb') ∨ Left ss c j') := by
  obtain ⟨k, hk, hp⟩ := hh
  obtain ⟨n1, a1, a2⟩ := h.conn_loop hk hp
  have hu : Prog.unroll inb (handleBody sv) Prog.ret = (handleBody sv inb).bind (Prog.next (handleBody sv) .ret) := rfl
  rw [hu] at a2
  conv at a2 => rhs; arg 1; arg 4; arg 1; arg 1; unfold handleBody; rw [hm]
  simp only [Prog.bind_act] at a2
  have left : ∀ {n : Nat} {k : ConnG}, (ss n).conns[c]? = some k → k.pc = .body (.ret ()) → ∃ j', n < j' ∧ Left ss c j' := by
    intro n k hk hp
    obtain ⟨j, j1, j2⟩ := h.conn_ret hk hp
    exact ⟨j, j1, _, j2, nofun⟩
  obtain ⟨b, d, b1, _, b2, b3⟩ := h.conn_act a2 rfl
  cases d with
  | true =>
    obtain ⟨j, r, j1, _, j2, j3⟩ := h.conn_act (a := .close) b3 rfl
    obtain ⟨j', x1, x2⟩ := left j3 rfl
    exact ⟨j, by omega, ⟨_, r, j2, .inr rfl⟩, j', by omega, .inr x2⟩
  | false =>
    obtain ⟨j, r, j1, _, j2, j3⟩ := h.conn_act (a := .recv) b3 rfl
    refine ⟨j, by omega, ⟨_, r, j2, .inl rfl⟩, ?_⟩
    cases r with
    | timeout => exact ⟨j + 1, by omega, .inl ⟨_, _, j3, rfl⟩⟩
    | closed =>
      obtain ⟨j', x1, x2⟩ := left j3 rfl
      exact ⟨j', by omega, .inr x2⟩
    | failed => exact (h.conn_panic j3 rfl).elim
    | data b =>
      obtain ⟨i, r, i1, _, _, i3⟩ := h.conn_act (a := .isStopping) j3 rfl
      exact ⟨i + 1, by omega, .inl ⟨_, _, i3, rfl⟩⟩

/-- From the head of the loop, the connection comes to read or to close. -/
theorem Endless.next_outer (h : Endless sv clock ss es F) {c n : Nat} {inb : Bytes} (hr : RoomyOn ss es c) (hh : AtHead sv ss c n inb) (hF : F (.conn c) := by first | exact trivial | assumption) :
    ∃ j, n ≤ j ∧ OuterAt es c j ∧ ∃ j', j < j' ∧ ((∃ inb', AtHead sv ss c j' inb') ∨ Left ss c j') := by
  generalize hl : inb.length = L
  induction L using Nat.strongRecOn generalizing inb n with
  | ind L ih =>
    cases hm : getMessage inb with
    | ready m =>
      obtain ⟨n', a1, a2⟩ := h.message hr hh hm
      have := (getMessage_ready hm).1
      obtain ⟨j, j1, j2⟩ := ih (inb.drop (4 + m.length)).length (by rw [List.length_drop]; omega) a2 rfl
      exact ⟨j, by omega, j2⟩
    | panic =>
      obtain ⟨k, hk, hp⟩ := hh
      obtain ⟨n1, a1, a2⟩ := h.conn_loop hk hp
      have hu : Prog.unroll inb (handleBody sv) Prog.ret = .panic := by
        unfold Prog.unroll handleBody
        rw [hm]; rfl
      rw [hu] at a2
      exact (h.conn_panic a2 rfl).elim
    | none => exact h.reads hh hm

/-- A connection that has left its loop does not come back. -/
theorem Endless.left_stays (h : Endless sv clock ss es F) {c n m : Nat} (hnm : n ≤ m) (hl : Left ss c n) : Left ss c m := by
  induction hnm with
  | refl => exact hl
  | @step m _ ih =>
    obtain ⟨k, hk, hp⟩ := ih
    by_cases he : (es m).of = some (.conn c)
    · obtain ⟨k0, a1, a2⟩ := step_conn_self (h.step m) he
      rw [hk] at a1; cases a1
      cases a2 with
      | act hq => exact absurd hq (hp _)
      | loop hq => exact absurd hq (hp _)
      | ret hq => exact absurd hq (hp _)
      | @oc o _ hk' => exact ⟨_, hk', by cases o <;> exact nofun⟩
    · exact ⟨k, step_conn_other (h.step m) hk he, hp⟩

/-- A connection reads again and again, until it ends. -/
theorem Endless.reads_on (h : Endless sv clock ss es F) {c n : Nat} (hr : RoomyOn ss es c) (hc : (ss n).conns[c]? ≠ none) (hF : F (.conn c) := by first | exact trivial | assumption) :
    ∃ m, n ≤ m ∧ (OuterAt es c m ∨ Left ss c m) := by
  have key : ∀ n, ((ss n).conns[c]? ≠ none) → ∃ b inb, AtHead sv ss c b inb := by
    intro n
    induction n with
    | zero => intro hc; rw [h.first] at hc; simp [Sys.new] at hc
    | succ n ih =>
      intro hc
      by_cases hn : (ss n).conns[c]? = none
      · rcases (h.step n).begins hn with e | ⟨g, x, e⟩
        · exact absurd e hc
        · have h0 := (h.evs 0 n).sv
          rw [Nat.zero_add, h.first] at h0
          rw [h0] at e
          exact ⟨n + 1, _, _, e, rfl⟩
      · exact ih hn
  obtain ⟨b, inb, hb⟩ := key n hc
  suffices hs : ∀ n, ∃ m, n ≤ m ∧ ((OuterAt es c m ∧ ∃ j', m < j' ∧ ((∃ inb', AtHead sv ss c j' inb') ∨ Left ss c j')) ∨ Left ss c m) by
    obtain ⟨m, m1, m2⟩ := hs n
    exact ⟨m, m1, m2.imp And.left id⟩
  intro n
  induction n with
  | zero =>
    obtain ⟨j, j1, j2⟩ := h.next_outer hr hb
    exact ⟨j, Nat.zero_le _, .inl j2⟩
  | succ n ih =>
    obtain ⟨m, m1, m2 | m2⟩ := ih
    · obtain ⟨_, j', j1, ⟨inb', j2⟩ | j2⟩ := m2
      · obtain ⟨j, a1, a2⟩ := h.next_outer hr j2
        exact ⟨j, by omega, .inl a2⟩
      · exact ⟨j', by omega, .inr j2⟩
    · exact ⟨m + 1, by omega, .inr (h.left_stays (Nat.le_succ _) m2)⟩

/-! ### What has been read -/

theorem received_append (l1 l2 : List REv) : received l1 <+: received (l1 ++ l2) := by
  fun_induction received l1 with
  | case1 b l ih => simpa [received] using ih
  | case2 e l hne ih =>
    by_cases hx : ∃ b l3, e = ⟨.recv, .data b⟩ ∧ l ++ l2 = ⟨.isStopping, false⟩ :: l3
    · obtain ⟨b, l3, rfl, hl⟩ := hx
      cases l with
      | nil => exact List.nil_prefix
      | cons x l =>
        cases hl
        exact (hne b l rfl rfl).elim
    · rw [List.cons_append]
      rw [received.eq_2 e (l ++ l2) fun b l3 h1 h2 => hx ⟨b, l3, h1, h2⟩]
      exact ih
  | case3 => exact List.nil_prefix

theorem frames_append (s t : Bytes) : frames s <+: frames (s ++ t) := by
  generalize hl : s.length = L
  induction L using Nat.strongRecOn generalizing s with
  | ind L ih =>
    by_cases h : 4 ≤ s.length ∧ 4 + be (s.take 4) ≤ s.length
    · rw [frames_append_cons h, frames_eq, if_pos h]
      exact List.cons_prefix_cons.2 ⟨rfl, ih _ (by rw [List.length_drop]; omega) _ rfl⟩
    · rw [frames_incomplete h]; exact List.nil_prefix

end KM
