import Verif.Go.Error
import Verif.Props.System
/-
Property C54: which errors count as a dropped connection.
-/
namespace KM.Props
open KM KM.Spec GoErr

/-- `Unwraps e x`: unwrapping `e` zero or more times, along any branch, gives `x`. -/
inductive Unwraps : GoErr → GoErr → Prop where
  | refl (e : GoErr) : Unwraps e e
  | sys {e x : GoErr} : Unwraps e x → Unwraps (.sysErr (some e)) x
  | op {e x : GoErr} : Unwraps e x → Unwraps (.opErr (some e)) x
  | other {a b c : Bool} {es : List GoErr} {e x : GoErr} : e ∈ es → Unwraps e x → Unwraps (.other a b c es) x

/-- This error value (not what it unwraps to) is, or claims to be, end-of-file. -/
def SaysEof : GoErr → Prop
  | .eof => True
  | .other a _ _ _ => a = true
  | _ => False

/-- This error value is, or claims to be, a closed connection. -/
def SaysClosed : GoErr → Prop
  | .netClosed => True
  | .other _ b _ _ => b = true
  | _ => False

/-- This error value is a connection reset. -/
def SaysReset : GoErr → Prop
  | .errno n => n = 104
  | _ => False

/-- The error is end-of-file, a closed connection or a connection reset, at any depth. -/
def Dropped (err : GoErr) : Prop := ∃ x, Unwraps err x ∧ (SaysEof x ∨ SaysClosed x ∨ SaysReset x)

theorem isAny_iff (t : Target) (es : List GoErr) : isAny t es = true ↔ ∃ e ∈ es, e.is t = true := by
  induction es with
  | nil => simp [isAny]
  | cons e es ih => simp [isAny, ih]

theorem is_of_unwraps {t : Target} {e x : GoErr} (h : Unwraps e x) (hx : x.is t = true) : e.is t = true := by
  induction h with
  | refl => exact hx
  | sys _ ih => simp only [GoErr.is]; exact ih hx
  | op _ ih => simp only [GoErr.is]; exact ih hx
  | other hm _ ih => rw [GoErr.is.eq_def]; simp only [(isAny_iff ..).2 ⟨_, hm, ih hx⟩, Bool.or_true]

/-- The kinds of error looked for. -/
def Says : Target → GoErr → Prop
  | .eof, x => SaysEof x
  | .netClosed, x => SaysClosed x
  | .deadline, .deadline => True
  | .deadline, .other _ _ c _ => c = true
  | .deadline, _ => False

mutual
theorem says_of_is (t : Target) : (e : GoErr) → e.is t = true → ∃ x, Unwraps e x ∧ Says t x
  | .eof, h => by
    have h : (t == .eof) = true := h
    cases t <;> first | exact ⟨_, .refl _, trivial⟩ | cases h
  | .netClosed, h => by
    have h : (t == .netClosed) = true := h
    cases t <;> first | exact ⟨_, .refl _, trivial⟩ | cases h
  | .deadline, h => by
    have h : (t == .deadline) = true := h
    cases t <;> first | exact ⟨_, .refl _, trivial⟩ | cases h
  | .errno _, h => by cases h
  | .sysErr none, h => by cases h
  | .sysErr (some e), h => by
    obtain ⟨x, h1, h2⟩ := says_of_is t e h
    exact ⟨x, .sys h1, h2⟩
  | .opErr none, h => by cases h
  | .opErr (some e), h => by
    obtain ⟨x, h1, h2⟩ := says_of_is t e h
    exact ⟨x, .op h1, h2⟩
  | .other a b c es, h => by
    simp only [GoErr.is, Bool.or_eq_true] at h
    rcases h with h | h
    · exact ⟨_, .refl _, by cases t <;> exact h⟩
    · obtain ⟨e, he, x, h1, h2⟩ := says_of_isAny t es h
      exact ⟨x, .other he h1, h2⟩
theorem says_of_isAny (t : Target) : (es : List GoErr) → isAny t es = true → ∃ e ∈ es, ∃ x, Unwraps e x ∧ Says t x
  | [], h => by cases h
  | e :: es, h => by
    simp only [isAny, Bool.or_eq_true] at h
    rcases h with h | h
    · obtain ⟨x, h1⟩ := says_of_is t e h
      exact ⟨e, List.mem_cons_self, x, h1⟩
    · obtain ⟨e', he, h1⟩ := says_of_isAny t es h
      exact ⟨e', List.mem_cons_of_mem _ he, h1⟩
end

theorem is_iff (t : Target) (e : GoErr) : e.is t = true ↔ ∃ x, Unwraps e x ∧ Says t x := by
  refine ⟨says_of_is t e, ?_⟩
  rintro ⟨x, h1, h2⟩
  refine is_of_unwraps h1 ?_
  cases t <;> cases x <;> first | (cases h2; done) | rfl | (simp only [GoErr.is, Bool.or_eq_true]; exact .inl h2)

/-- **C54**, no other error: whatever is treated as a disconnect is end-of-file, a closed connection or a connection reset. -/
theorem C54_sound {err : GoErr} (h : wasSocketClosed err = true) : Dropped err := by
  unfold wasSocketClosed at h
  split at h
  · next h1 =>
    rw [Bool.or_eq_true, is_iff, is_iff] at h1
    rcases h1 with ⟨x, h1, h2⟩ | ⟨x, h1, h2⟩
    · exact ⟨x, h1, .inl h2⟩
    · exact ⟨x, h1, .inr (.inl h2)⟩
  · split at h
    · next n => exact ⟨_, .op (.sys (.refl _)), .inr (.inr (LawfulBEq.eq_of_beq h))⟩
    · cases h

/-- **C54**, end-of-file and closed connections are recognised at any depth, in every branch. -/
theorem C54_eof_closed {err x : GoErr} (h : Unwraps err x) (hx : SaysEof x ∨ SaysClosed x) : wasSocketClosed err = true := by
  unfold wasSocketClosed
  rw [if_pos]
  rw [Bool.or_eq_true, is_iff, is_iff]
  rcases hx with hx | hx
  · exact .inl ⟨x, h, hx⟩
  · exact .inr ⟨x, h, hx⟩

/-- The errors that reads from TCP connections and `Accept` of Go's `net` package return: end-of-file, or an `*net.OpError` around a closed connection,
a deadline, or an `*os.SyscallError` around an errno. -/
inductive FromNet : GoErr → Prop where
  | eof : FromNet .eof
  | closed : FromNet (.opErr (some .netClosed))
  | deadline : FromNet (.opErr (some .deadline))
  | sys (n : Nat) : FromNet (.opErr (some (.sysErr (some (.errno n)))))

/-- **C54**, exactly, for every error in which a connection reset (if there is one at all) is directly in an `*os.SyscallError` directly in a
`*net.OpError`. What is missing is a connection reset in any other place, which is not recognised (`C54_false`). -/
theorem C54_partial {err : GoErr} (h : ∀ x, Unwraps err x → SaysReset x → ∃ n, err = .opErr (some (.sysErr (some (.errno n))))) :
    wasSocketClosed err = true ↔ Dropped err := by
  refine ⟨C54_sound, ?_⟩
  rintro ⟨x, h1, h2 | h2 | h2⟩
  · exact C54_eof_closed h1 (.inl h2)
  · exact C54_eof_closed h1 (.inr h2)
  · obtain ⟨n, rfl⟩ := h x h1 h2
    cases h1 with
    | refl => cases h2
    | op h1 =>
    cases h1 with
    | refl => cases h2
    | sys h1 =>
    cases h1
    cases (show n = 104 from h2)
    decide +kernel

/-- The errors of Go's `net` package are classified exactly. -/
theorem C54_net {err : GoErr} (h : FromNet err) : wasSocketClosed err = true ↔ Dropped err := by
  refine C54_partial ?_
  intro x hx hr
  cases h with
  | eof => cases hx; cases hr
  | closed =>
    cases hx with
    | refl => cases hr
    | op hx => cases hx; cases hr
  | deadline =>
    cases hx with
    | refl => cases hr
    | op hx => cases hx; cases hr
  | sys n => exact ⟨n, rfl⟩

/-- Examples: a reset and a refused connection. -/
example : Dropped (.opErr (some (.sysErr (some (.errno 104))))) ∧ ¬ Dropped (.opErr (some (.sysErr (some (.errno 111))))) :=
  ⟨(C54_net (.sys _)).1 (by decide +kernel), fun h => absurd ((C54_net (.sys _)).2 h) (by decide +kernel)⟩

/-- Example: end-of-file wrapped three deep in one branch of a joined error. -/
example : wasSocketClosed (.other false false false [.errno 5, .other false false false [.opErr (some .eof)]]) = true :=
  C54_eof_closed (x := .eof) (.other (e := .other false false false [.opErr (some .eof)]) (by simp) (.other (e := .opErr (some .eof)) (by simp) (.op (.refl _)))) (.inl trivial)

/-- **C54** is false: a connection reset that is wrapped in another error, or comes without the usual wrapping, is not recognised. -/
theorem C54_false : ¬ ∀ err, wasSocketClosed err = true ↔ Dropped err := by
  intro h
  have := (h (.other false false false [.opErr (some (.sysErr (some (.errno 104))))])).2
    ⟨.errno 104, .other (e := .opErr (some (.sysErr (some (.errno 104))))) (by simp) (.op (.sys (.refl _))), .inr (.inr rfl)⟩
  revert this
  decide +kernel

/-- After an error that is not a deadline, a connection goroutine reads no more and does nothing more. -/
theorem conv_error {sv : Server} {inb : Bytes} {l : List REv} {q : Prog Unit} (h : Conv sv inb l q) {l1 l2 : List REv} {r : RecvResult}
    (hl : l = l1 ++ ⟨.recv, r⟩ :: l2) : (r = .closed → l2 = [] ∧ q = .ret ()) ∧ (r = .failed → l2 = [] ∧ q = .panic) := by
  have hne : ∀ {l : List REv}, (∀ e ∈ l, Inner e.act) → (⟨.recv, r⟩ : REv) ∉ l := fun h he => h _ he
  induction h generalizing l1 with
  | head => cases l1 <;> cases hl
  | part hn h _ h3 =>
    rcases h with rfl | ⟨d, rfl⟩ | rfl | ⟨r, rfl⟩
    · cases l1 <;> cases hl
    · rcases l1 with _ | ⟨_, _ | _⟩ <;> cases hl
    · rcases l1 with _ | ⟨_, _ | ⟨_, _ | _⟩⟩ <;> cases hl
    · rcases l1 with _ | ⟨_, _ | ⟨_, _ | _⟩⟩ <;> cases hl
      constructor
      · rintro rfl; exact ⟨rfl, h3.1 rfl⟩
      · rintro rfl; exact ⟨rfl, h3.2 rfl⟩
  | @timeout inb l q hn h ih =>
    rcases l1 with _ | ⟨_, _ | ⟨_, l1⟩⟩
    · cases hl
    · cases hl; exact ⟨(fun h => by cases h), (fun h => by cases h)⟩
    · simp only [List.cons_append, List.cons.injEq] at hl
      obtain ⟨rfl, rfl, hl⟩ := hl
      exact ih hl
  | @ignored inb b l q hn h ih =>
    rcases l1 with _ | ⟨_, _ | ⟨_, _ | ⟨_, l1⟩⟩⟩
    · cases hl
    · cases hl; exact ⟨(fun h => by cases h), (fun h => by cases h)⟩
    · cases hl
    · simp only [List.cons_append, List.cons.injEq] at hl
      obtain ⟨rfl, rfl, rfl, hl⟩ := hl
      exact ih hl
  | @read inb b l q hn h ih =>
    rcases l1 with _ | ⟨_, _ | ⟨_, _ | ⟨_, l1⟩⟩⟩
    · cases hl
    · cases hl; exact ⟨(fun h => by cases h), (fun h => by cases h)⟩
    · cases hl
    · simp only [List.cons_append, List.cons.injEq] at hl
      obtain ⟨rfl, rfl, rfl, hl⟩ := hl
      exact ih hl
  | huge => cases l1 <;> cases hl
  | begin => cases l1 <;> cases hl
  | @serving inb m' l x q hm hd _ =>
    cases l1 with
    | nil => cases hl
    | cons x l1 =>
      simp only [List.cons_append, List.cons.injEq] at hl
      exact absurd (by rw [hl.2]; simp) (hne (dispatcher_inner hd))
  | @rejected inb m' l hm hd =>
    cases l1 with
    | nil => simp at hl
    | cons x l1 =>
      simp only [List.cons_append, List.cons.injEq] at hl
      obtain ⟨l1', rfl, e⟩ := split_after hl.2 (hne (dispatcher_inner hd))
      rcases l1' with _ | ⟨_, _ | _⟩ <;> cases e
  | @served inb m' l l2' q hm hd h ih =>
    cases l1 with
    | nil => simp at hl
    | cons x l1 =>
      simp only [List.cons_append, List.cons.injEq] at hl
      obtain ⟨rfl, hl⟩ := hl
      obtain ⟨l1', rfl, e⟩ := split_after hl (hne (dispatcher_inner hd))
      cases l1' with
      | nil => cases e
      | cons y l1' =>
        simp only [List.cons_append, List.cons.injEq] at e
        obtain ⟨rfl, e⟩ := e
        exact ih e

/-- After a deadline a connection goroutine carries on with its loop. -/
theorem conv_deadline {sv : Server} {inb : Bytes} {l : List REv} {q : Prog Unit} (h : Conv sv inb l q) {l1 l2 : List REv}
    (hl : l = l1 ++ ⟨.recv, .timeout⟩ :: l2) : (l2 = [] ∧ q ≠ .ret () ∧ q ≠ .panic) ∨ ∃ d l3, l2 = ⟨.isDone, d⟩ :: l3 := by
  have hne : ∀ {l : List REv}, (∀ e ∈ l, Inner e.act) → (⟨.recv, .timeout⟩ : REv) ∉ l := fun h he => h _ he
  induction h generalizing l1 with
  | head => cases l1 <;> cases hl
  | part hn h h2 h3 h4 =>
    rcases h with rfl | ⟨d, rfl⟩ | rfl | ⟨r, rfl⟩
    · cases l1 <;> cases hl
    · rcases l1 with _ | ⟨_, _ | _⟩ <;> cases hl
    · rcases l1 with _ | ⟨_, _ | ⟨_, _ | _⟩⟩ <;> cases hl
    · rcases l1 with _ | ⟨_, _ | ⟨_, _ | _⟩⟩ <;> cases hl
      refine .inl ⟨rfl, fun h => ?_, fun h => ?_⟩
      · rcases h2 h with h | h <;> cases h
      · cases h4 h
  | @timeout inb l q hn h ih =>
    rcases l1 with _ | ⟨_, _ | ⟨_, l1⟩⟩
    · cases hl
    · cases hl
      cases h with
      | head => exact .inl ⟨rfl, fun h => (by cases h), fun h => (by cases h)⟩
      | part _ h h2 h3 h4 =>
        rcases h with rfl | ⟨d, rfl⟩ | rfl | ⟨r, rfl⟩
        · refine .inl ⟨rfl, fun h => ?_, fun h => ?_⟩
          · rcases h2 h with h | h <;> cases h
          · cases h4 h
        · exact .inr ⟨_, _, rfl⟩
        · exact .inr ⟨_, _, rfl⟩
        · exact .inr ⟨_, _, rfl⟩
      | timeout => exact .inr ⟨_, _, rfl⟩
      | ignored => exact .inr ⟨_, _, rfl⟩
      | read => exact .inr ⟨_, _, rfl⟩
      | huge h => rw [hn] at h; cases h
      | begin h => rw [hn] at h; cases h
      | serving h => rw [hn] at h; cases h
      | rejected h => rw [hn] at h; cases h
      | served h => rw [hn] at h; cases h
    · simp only [List.cons_append, List.cons.injEq] at hl
      obtain ⟨rfl, rfl, hl⟩ := hl
      exact ih hl
  | @ignored inb b l q hn h ih =>
    rcases l1 with _ | ⟨_, _ | ⟨_, _ | ⟨_, l1⟩⟩⟩
    · cases hl
    · cases hl
    · cases hl
    · simp only [List.cons_append, List.cons.injEq] at hl
      obtain ⟨rfl, rfl, rfl, hl⟩ := hl
      exact ih hl
  | @read inb b l q hn h ih =>
    rcases l1 with _ | ⟨_, _ | ⟨_, _ | ⟨_, l1⟩⟩⟩
    · cases hl
    · cases hl
    · cases hl
    · simp only [List.cons_append, List.cons.injEq] at hl
      obtain ⟨rfl, rfl, rfl, hl⟩ := hl
      exact ih hl
  | huge => cases l1 <;> cases hl
  | begin => cases l1 <;> cases hl
  | @serving inb m' l x q hm hd _ =>
    cases l1 with
    | nil => cases hl
    | cons x l1 =>
      simp only [List.cons_append, List.cons.injEq] at hl
      exact absurd (by rw [hl.2]; simp) (hne (dispatcher_inner hd))
  | @rejected inb m' l hm hd =>
    cases l1 with
    | nil => simp at hl
    | cons x l1 =>
      simp only [List.cons_append, List.cons.injEq] at hl
      obtain ⟨l1', rfl, e⟩ := split_after hl.2 (hne (dispatcher_inner hd))
      rcases l1' with _ | ⟨_, _ | _⟩ <;> cases e
  | @served inb m' l l2' q hm hd h ih =>
    cases l1 with
    | nil => simp at hl
    | cons x l1 =>
      simp only [List.cons_append, List.cons.injEq] at hl
      obtain ⟨rfl, hl⟩ := hl
      obtain ⟨l1', rfl, e⟩ := split_after hl (hne (dispatcher_inner hd))
      cases l1' with
      | nil => cases e
      | cons y l1' =>
        simp only [List.cons_append, List.cons.injEq] at e
        obtain ⟨rfl, e⟩ := e
        exact ih e

/-- **C54** in the handler: when the deadline of a read has passed, whatever else the error is, the connection goroutine neither ends nor panics; the next
thing it does is to look whether the mock is to finish. -/
theorem C54_deadline {sv : Server} {w w' : World} {tr : List Ev} {p' : Prog Unit} (h : Exec w (handle sv) tr w' p') {l1 l2 : List REv} {err : GoErr}
    (hl : own tr = l1 ++ ⟨.recv, readOutcome (.error err)⟩ :: l2) (hd : err.is .deadline = true) :
    (l2 = [] ∧ p' ≠ .ret () ∧ p' ≠ .panic) ∨ ∃ d l3, l2 = ⟨.isDone, d⟩ :: l3 := by
  refine conv_deadline (handle_conv h.own) (l1 := l1) ?_
  rw [hl]
  simp [readOutcome, hd]

/-- A deadline joined with end of file: the goroutine looks whether the mock is to finish, and ends because it is. -/
example : ∃ w', Exec ⟨[], 0, false⟩ (handle ⟨9092, []⟩)
    [⟨true, .isDone, false⟩, ⟨true, .recv, readOutcome (.error (.other false false false [.eof, .deadline]))⟩, ⟨false, .cancel, ()⟩, ⟨true, .isDone, true⟩, ⟨true, .close, ()⟩] w' (.ret ()) :=
  ⟨_, .unroll (.mine .isDone _ false ⟨rfl, rfl⟩ (.mine .recv _ _ ⟨rfl, fun b h => by cases h⟩ (.unroll (.env .cancel () rfl (.mine .isDone _ true ⟨rfl, rfl⟩ (.mine .close _ _ rfl (.refl _ _)))))))⟩

/-- **C54** in the handler: when a read fails with an error other than a deadline, the connection goroutine ends quietly if the error counts as a
disconnect, and panics otherwise; in either case it does nothing more. -/
theorem C54_handler {sv : Server} {w w' : World} {tr : List Ev} {p' : Prog Unit} (h : Exec w (handle sv) tr w' p') {l1 l2 : List REv} {err : GoErr}
    (hl : own tr = l1 ++ ⟨.recv, readOutcome (.error err)⟩ :: l2) (hd : err.is .deadline = false) :
    l2 = [] ∧ p' = if wasSocketClosed err then .ret () else .panic := by
  have := conv_error (handle_conv h.own) hl
  cases hc : wasSocketClosed err with
  | true => exact this.1 (by simp [readOutcome, hd, hc])
  | false => exact this.2 (by simp [readOutcome, hd, hc])

/-- Both ends can happen. -/
example : ∃ w', Exec ⟨[], 0, false⟩ (handle ⟨9092, []⟩) [⟨true, .isDone, false⟩, ⟨true, .recv, readOutcome (.error .eof)⟩] w' (.ret ()) :=
  ⟨_, .unroll (.mine .isDone _ false ⟨rfl, rfl⟩ (.mine .recv _ _ ⟨rfl, fun b h => by cases h⟩ (.refl _ _)))⟩

end KM.Props
