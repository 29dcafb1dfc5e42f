import Verif.Latency
import Verif.Props.Lifecycle
import Verif.Props.Posts
import Verif.Props.Visible
/-
C84: the latency hook only delays.
-/
namespace KM.Props
open KM

/-- Time passes, a goroutine sleeps or enters a round of its loop. -/
def timing : SEv → Bool
  | .tick _ => true
  | .unroll _ => true
  | .conn _ (.sleep _) _ => true
  | _ => false

theorem delays_rest {l m : List SEv} (h : Delays l m) : m.filter (!timing ·) = l.filter (!timing ·) := by
  induction h with
  | nil => rfl
  | same e _ ih => simp only [List.filter_cons, ih]
  | unroll _ _ ih => exact ih
  | sleep _ _ _ _ _ ih => exact ih

/-- C84. Whatever the mock does when its connections have latencies, it can do without latencies: the calls, the steps of all goroutines, their reads, writes and
actions on the store, with their results, are the same in the same order; the store and the time at the end are the same; every caller is at the same point; and whatever can end
the process then, can end it without latencies. -/
theorem C84 {sv : Server} {clock : Int} {tr : List SEv} {s : Sys} (h : Late.Run (Sys.new sv clock) tr s) :
    ∃ (tr' : List SEv) (t : Sys), Sys.Run (Sys.new sv clock) tr' t ∧ tr'.filter (!timing ·) = tr.filter (!timing ·) ∧
      t.ds = s.ds ∧ t.clock = s.clock ∧ t.api = s.api ∧ ∀ ch x, s.next ch = .crash x → t.next ch = .crash x := by
  obtain ⟨tr', l, dn, hr, hs, hd⟩ := late_run (s := Sys.new sv clock) h (l := []) (dn := []) ⟨fun _ => rfl, rfl, fun h => by cases h⟩
  exact ⟨tr', s.but l dn, hr, delays_rest hd, rfl, rfl, rfl, fun ch x hx => late_crash hs hx⟩

theorem served_rest (c : Nat) (tr : List SEv) : Spec.served (actsOf c tr) = Spec.served (actsOf c (tr.filter (!timing ·))) := by
  induction tr with
  | nil => rfl
  | cons e tr ih =>
    cases e with
    | tick => exact ih
    | unroll => exact ih
    | life => exact ih
    | call => exact ih
    | conn c' a r =>
      by_cases hc : c' = c
      · subst hc
        cases a <;> simp only [List.filter_cons, timing, actsOf, List.filterMap_cons, if_true, Bool.not_false, Bool.not_true] <;>
          simp only [Spec.served, List.cons.injEq, true_and, Bool.false_eq_true, if_false] <;> exact ih
      · have : ∀ l, actsOf c (.conn c' a r :: l) = actsOf c l := fun l => by simp only [actsOf, List.filterMap_cons, if_neg hc]
        rw [this, ih]
        simp only [List.filter_cons]
        split
        · rw [this]
        · rfl

theorem sent_rest (c : Nat) (tr : List SEv) : Spec.sent (actsOf c tr) = Spec.sent (actsOf c (tr.filter (!timing ·))) := by
  induction tr with
  | nil => rfl
  | cons e tr ih =>
    cases e with
    | tick => exact ih
    | unroll => exact ih
    | life => exact ih
    | call => exact ih
    | conn c' a r =>
      by_cases hc : c' = c
      · subst hc
        cases a with
        | write b =>
          cases r <;> simp only [List.filter_cons, timing, actsOf, List.filterMap_cons, if_true, Bool.not_false] <;>
            simp only [Spec.sent, List.append_cancel_left_eq] <;> exact ih
        | _ =>
          simp only [List.filter_cons, timing, actsOf, List.filterMap_cons, if_true, Bool.not_false, Bool.not_true]
          simp only [Spec.sent, Bool.false_eq_true, if_false]
          exact ih
      · have : ∀ l, actsOf c (.conn c' a r :: l) = actsOf c l := fun l => by simp only [actsOf, List.filterMap_cons, if_neg hc]
        rw [this, ih]
        simp only [List.filter_cons]
        split
        · rw [this]
        · rfl

/-- C84, for the clients: the requests of every connection that have been taken up, and the bytes that have been sent on it, are those of the run without latencies. -/
theorem C84_clients {sv : Server} {clock : Int} {tr : List SEv} {s : Sys} (h : Late.Run (Sys.new sv clock) tr s) :
    ∃ (tr' : List SEv) (t : Sys), Sys.Run (Sys.new sv clock) tr' t ∧ t.ds = s.ds ∧ t.clock = s.clock ∧
      ∀ c, Spec.served (actsOf c tr') = Spec.served (actsOf c tr) ∧ Spec.sent (actsOf c tr') = Spec.sent (actsOf c tr) := by
  obtain ⟨tr', t, hr, he, h1, h2, _⟩ := C84 h
  exact ⟨tr', t, hr, h1, h2, fun c => ⟨by rw [served_rest, he, ← served_rest], by rw [sent_rest, he, ← sent_rest]⟩⟩

theorem delayedHandle_zero (sv : Server) : delayedHandle sv 0 = handle sv := by
  unfold delayedHandle handle
  congr

/-- With latency zero for every connection the mock with latencies is the mock. -/
theorem _root_.KM.Late.Run.of_run {s s' : Sys} {tr : List SEv} (h : Sys.Run s tr s') : Late.Run s tr s' := by
  induction h with
  | nil s => exact .nil s
  | @cons s s1 s2 e es hs _ ih =>
    refine .cons ?_ ih
    have step := hs
    cases hs with
    | @life _ ch hn =>
      cases ch with
      | api => exact .same step (by rw [apiStep_conns hn])
      | conn c => exact .same step (connStep_length hn)
      | parentCancel => cases hn; exact .same step rfl
      | run g ok =>
        rcases runStep_conns hn with h | ⟨r, _, _, h⟩
        · exact .same step (by rw [h])
        · have := Late.Step.accept step h 0
          rw [delayedHandle_zero] at this
          dsimp only at this
          rw [← h] at this
          exact this
    | conn => exact .same step (by simp [Sys.setConn, Sys.setView])
    | unroll => exact .same step (by simp [Sys.setConn])
    | call => exact .same step rfl
    | tick => exact .same step rfl

theorem _root_.KM.Late.Run.append {s s1 s2 : Sys} {l m : List SEv} (h : Late.Run s l s1) (h' : Late.Run s1 m s2) : Late.Run s (l ++ m) s2 := by
  induction h with
  | nil => exact h'
  | cons h _ ih => exact .cons h (ih h')

/-- A connection is about to be accepted. -/
def acceptsNext : Sys := stateAfter (bootAndPost ++ List.replicate 3 (.run 0)) (Sys.new ⟨9092, []⟩ 0)

/-- It has been accepted, with latency 100. -/
def acceptedLate : Sys := { stateAfter [.run 0] acceptsNext with conns := acceptsNext.conns ++ [⟨0, 1, 0, .body (delayedHandle acceptsNext.sv 100)⟩] }

/-- Its client asks for the end of the log. -/
def asksLate : List Pick := List.replicate 3 (.run 0) ++ [.conn 0] ++ asks 0 askLatest 7 ++ List.replicate 12 (.conn 0)

theorem acceptedLate_step : Late.Step acceptsNext (.life (.run 0 true)) acceptedLate := by
  have h : acceptsNext.next (.run 0 true) = .ok (stateAfter [.run 0] acceptsNext) := rfl
  have hn : (stateAfter [.run 0] acceptsNext).conns = acceptsNext.conns ++ [⟨0, 1, 0, .body (handle acceptsNext.sv)⟩] := rfl
  have := Late.Step.accept (.life (c := .run 0 true) h) hn 100
  exact this

def lateEvents : List SEv :=
  eventsOf (bootAndPost ++ List.replicate 3 (.run 0)) (Sys.new ⟨9092, []⟩ 0) ++ SEv.life (.run 0 true) :: eventsOf asksLate acceptedLate

theorem lateEvents_run : Late.Run (Sys.new ⟨9092, []⟩ 0) lateEvents (stateAfter asksLate acceptedLate) :=
  (Late.Run.of_run (s' := acceptsNext) (stateAfter_run ..)).append (.cons acceptedLate_step (Late.Run.of_run (stateAfter_run ..)))

set_option maxRecDepth 100000 in
/-- The hypothesis of the theorems above: a request on a connection with latency 100 is answered after 200 nanoseconds (the round that reads it and the round that
processes it sleep). -/
example : ∃ tr s, Late.Run (Sys.new ⟨9092, []⟩ 0) tr s ∧ s.clock = 200 ∧ Spec.served (actsOf 0 tr) = [askLatest.message 7 (some [99])] ∧ Spec.sent (actsOf 0 tr) ≠ [] :=
  ⟨lateEvents, stateAfter asksLate acceptedLate, lateEvents_run, by decide +kernel, by decide +kernel, by decide +kernel⟩

end KM.Props
