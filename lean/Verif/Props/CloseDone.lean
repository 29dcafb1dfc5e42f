import Verif.Props.CloseReturns
import Verif.Halts
/-
C86: when the server is done and nothing is posted any more, no request lasts for ever, so `Close` of a client returns.
-/
namespace KM.Props
open Spec

variable {sv : Server} {w : World} {ss : Nat → CSys} {es : Nat → CEv}

/-- From moment `n` on the client's goroutine finds the server done whenever it looks, and Fetch finds no further record. -/
def DoneFrom (es : Nat → CEv) (n : Nat) : Prop := ∀ m, n ≤ m → ∀ e, es m = .own e → doneResp e.act e.resp

theorem step_stoppable {s s' : CSys} {e : CEv} (h : CSys.Step s e s') (hp : ∀ p, s.prog = some p → p.Stoppable doneResp) : ∀ p, s'.prog = some p → p.Stoppable doneResp := by
  intro p hp'
  cases h with
  | own hp0 => cases hp'; exact (hp _ hp0).2 _
  | round hp0 => cases hp'; exact (hp _ hp0).unroll
  | ended => cases hp'
  | caller hc => rw [(callerStep_same hc).1] at hp'; exact hp p hp'
  | env => exact hp p hp'

theorem CEndless.stoppable (h : CEndless sv w ss es) (n : Nat) : ∀ p, (ss n).prog = some p → p.Stoppable doneResp := by
  induction n with
  | zero =>
    intro p hp
    rw [h.first] at hp
    cases hp
    exact handle_stoppable sv
  | succ n ih => exact step_stoppable (h.step n) ih

theorem step_over {s s' : CSys} {e : CEv} (h : CSys.Step s e s') (hp : ∀ p, s.prog = some p → Phase sv p s.requests) (h0 : s.prog = none → s.requests = 0) (hn : s'.prog = none) :
    s'.requests = 0 := by
  cases h with
  | own => cases hn
  | round => cases hn
  | ended hp0 =>
    show s.requests = 0
    have hph := hp _ hp0
    generalize s.requests = q at hph
    generalize hx : Prog.ret () = x at hph
    cases hph with
    | @serving inb m hm y hy => cases y <;> cases hx
    | panic => cases hx
    | _ => rfl
  | caller hc => rw [(callerStep_same hc).1] at hn; rw [(callerStep_same hc).2.1]; exact h0 hn
  | env => exact h0 hn

theorem CEndless.over (h : CEndless sv w ss es) (n : Nat) : (ss n).prog = none → (ss n).requests = 0 := by
  induction n with
  | zero => intro hn; rw [h.first] at hn; cases hn
  | succ n ih => exact step_over (h.step n) (h.phase n) ih

theorem step_panics {s s' : CSys} {e : CEv} (h : CSys.Step s e s') (hn : s.prog = some .panic) : s'.prog = some .panic := by
  cases h with
  | own hp => rw [hn] at hp; cases hp
  | round hp => rw [hn] at hp; cases hp
  | ended hp => rw [hn] at hp; cases hp
  | caller hc => rw [(callerStep_same hc).1]; exact hn
  | env => exact hn

theorem CEndless.panics (h : CEndless sv w ss es) {n m : Nat} (hnm : n ≤ m) (hn : (ss n).prog = some .panic) : (ss m).prog = some .panic := by
  induction hnm with
  | refl => exact hn
  | step _ ih => exact step_panics (h.step _) ih

/-- The client's goroutine ends. -/
theorem CEndless.done_ends (h : CEndless sv w ss es) (hnp : ∀ m, (ss m).prog ≠ some .panic) {n0 : Nat} (hd : DoneFrom es n0) {p : Prog Unit} (hp : p.Halts doneResp) {n : Nat}
    (hn : n0 ≤ n) (he : (ss n).prog = some p) : ∃ m, n ≤ m ∧ (ss m).prog = none := by
  induction hp generalizing n with
  | ret v => exact h.next_ret he
  | panic => exact absurd he (hnp n)
  | @act a k _ ih =>
    obtain ⟨m, h1, h2, h3, _⟩ := h.next he nofun
    have hs := h.step m
    have hdm := hd m (by omega)
    generalize es m = e at hs h2 hdm
    generalize hx : ss (m + 1) = s' at hs
    cases hs with
    | @own b g r w hp0 hr ha =>
      rw [h3] at hp0
      cases hp0
      obtain ⟨m', k1, k2⟩ := ih r (hdm _ rfl) (n := m + 1) (by omega) (by rw [hx])
      exact ⟨m', by omega, k2⟩
    | round hp0 => rw [h3] at hp0; cases hp0
    | ended hp0 => rw [h3] at hp0; cases hp0
    | caller => cases h2
    | env => cases h2
  | loop _ ih =>
    obtain ⟨m, h1, h2, _⟩ := h.next_loop he
    obtain ⟨m', k1, k2⟩ := ih (n := m) (by omega) h2
    exact ⟨m', by omega, k2⟩

/-- No request lasts for ever. -/
theorem CEndless.done_requests (h : CEndless sv w ss es) (hnp : ∀ m, (ss m).prog ≠ some .panic) {n0 : Nat} (hd : DoneFrom es n0) : ∀ n, ∃ m, n ≤ m ∧ (ss m).requests = 0 := by
  intro n
  have ⟨m, h1, h2⟩ : ∃ m, n0 ≤ m ∧ (ss m).prog = none := by
    cases hp : (ss n0).prog with
    | none => exact ⟨n0, Nat.le_refl _, hp⟩
    | some p => exact h.done_ends hnp hd (h.stoppable n0 p hp).halts (Nat.le_refl _) hp
  exact ⟨max n m, Nat.le_max_left .., h.over _ (h.gone (Nat.le_max_right ..) h2)⟩

/-- **C86**: with a fair scheduler `Close` returns, if at some time the server is done and from then on Fetch finds no further record. (Unless it panics, or the client's goroutine does.) -/
theorem C86_returns_done_partial (h : CEndless sv w ss es) {i n n0 : Nat} (hi : (ss n).callers i ≠ .store) (hd : DoneFrom es n0) :
    ∃ m, n ≤ m ∧ ((ss m).callers i = .returned ∨ (ss m).callers i = .panicked ∨ (ss m).prog = some .panic) := by
  by_cases hnp : ∀ m, (ss m).prog ≠ some .panic
  · exact C86_returns_partial h hi (h.done_requests hnp hd)
  · have ⟨k, hk⟩ := Classical.not_forall.1 hnp
    exact ⟨max n k, Nat.le_max_left .., .inr (.inr (h.panics (Nat.le_max_right ..) (Classical.not_not.1 hk)))⟩

/-- **C86**: if moreover all requests received have been taken up when `Close` is called for the first time, every caller of `Close` sees it return (unless the client's goroutine panics). -/
theorem C86_returns_done_calm_partial (h : CEndless sv w ss es) {i j n k n0 : Nat} (hl : ∀ j, .caller j ∉ (List.range n).map es) (he : es n = .caller i)
    (hf : served (ownOf ((List.range n).map es)) = frames (received (ownOf ((List.range n).map es)))) (hj : (ss k).callers j ≠ .store) (hk : n ≤ k)
    (hd : DoneFrom es n0) : ∃ m, k ≤ m ∧ ((ss m).callers j = .returned ∨ (ss m).prog = some .panic) := by
  by_cases hnp : ∀ m, (ss m).prog ≠ some .panic
  · exact C86_returns_calm_partial h hl he hf hj hk (h.done_requests hnp hd)
  · have ⟨k', hk⟩ := Classical.not_forall.1 hnp
    exact ⟨max k k', Nat.le_max_left .., .inr (h.panics (Nat.le_max_right ..) (Classical.not_not.1 hk))⟩

end KM.Props
