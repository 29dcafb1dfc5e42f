import Verif.Props.System
import Verif.Props.Registry
import Verif.Props.Posts
import Verif.Fair
import Verif.Serve
/-
C80: the mock closes every connection it is done with.
-/
namespace KM.Props
open KM

/-- Whether an action of a connection closes it. -/
def closesConn (e : REv) : Bool := e.act matches .close

theorem closesConn_iff {e : REv} : closesConn e = true ↔ e = ⟨.close, ()⟩ := by
  obtain ⟨a, r⟩ := e
  constructor
  · intro h
    cases a <;> first | rfl | cases h
  · rintro h; rw [h]; rfl

theorem own_last_close {sv : Server} {inb : Bytes} {l : List REv} {q : Prog Unit} (h : Conv sv inb l q) : ∀ ta tb, l = ta ++ ⟨.close, ()⟩ :: tb → tb = [] := by
  have inner : ∀ {m : Bytes} {l : List REv} {x : Prog DRes}, Own (dispatcher sv ⟨m⟩ m.length) l x → (⟨.close, ()⟩ : REv) ∉ l := fun hd hm =>
    (hd.only (dispatcher_onlyInner sv _ _)).2 _ hm
  have skip : ∀ {e : REv} {l : List REv}, closesConn e = false → (∀ ta tb, l = ta ++ ⟨.close, ()⟩ :: tb → tb = []) →
      ∀ ta tb, e :: l = ta ++ ⟨.close, ()⟩ :: tb → tb = [] := by
    intro e l he ih ta tb h
    cases ta with
    | nil => simp only [List.nil_append, List.cons.injEq] at h; rw [h.1] at he; cases he
    | cons x ta => simp only [List.cons_append, List.cons.injEq] at h; exact ih ta tb h.2
  have none : ∀ {l : List REv}, (⟨.close, ()⟩ : REv) ∉ l → ∀ ta tb, l = ta ++ ⟨.close, ()⟩ :: tb → tb = [] :=
    fun hn ta tb h => absurd (by rw [h]; simp) hn
  have over : ∀ {l l2 : List REv}, (⟨.close, ()⟩ : REv) ∉ l → (∀ ta tb, l2 = ta ++ ⟨.close, ()⟩ :: tb → tb = []) →
      ∀ ta tb, l ++ l2 = ta ++ ⟨.close, ()⟩ :: tb → tb = [] := by
    intro l l2 hl ih
    induction l with
    | nil => exact ih
    | cons e l ihl =>
      refine skip ?_ (ihl fun h => hl (List.mem_cons_of_mem _ h))
      cases he : closesConn e with
      | false => rfl
      | true => rw [closesConn_iff.1 he] at hl; exact absurd List.mem_cons_self hl
  induction h with
  | head => exact none (by simp)
  | part hn hl hq hr hp =>
    rcases hl with rfl | ⟨d, rfl⟩ | rfl | ⟨r, rfl⟩
    · exact none (by simp)
    · exact skip rfl (none (by simp))
    · refine skip rfl ?_
      intro ta tb h
      cases ta with
      | nil => simp only [List.nil_append, List.cons.injEq] at h; exact h.2.symm
      | cons x ta => simp at h
    · exact skip rfl (skip rfl (none (by simp)))
  | timeout hn h ih => exact skip rfl (skip rfl ih)
  | ignored hn h ih => exact skip rfl (skip rfl (skip rfl ih))
  | read hn h ih => exact skip rfl (skip rfl (skip rfl ih))
  | huge => exact none (by simp)
  | begin => exact none (by simp)
  | serving hm hd hq => exact skip rfl (none (inner hd))
  | rejected hm hd => exact skip rfl (over (inner hd) (skip rfl (none (by simp))))
  | served hm hd h ih => exact skip rfl (over (inner hd) (skip rfl ih))

/-- **C80**, the first half: when the mock has closed a connection it does nothing more with it; it does not read or write, it begins no request, and it does not close it again. -/
theorem C80_last_partial {sv : Server} {clock : Int} {tr : List SEv} {s : Sys} (h : Sys.Run (Sys.new sv clock) tr s) {c : Nat} {k : ConnG}
    (hk : s.conns[c]? = some k) {ta tb : List REv} (hc : actsOf c tr = ta ++ ⟨.close, ()⟩ :: tb) : tb = [] := by
  obtain ⟨w, w', es, p, h1, h2, h3⟩ := h.connection hk
  rw [← h2] at hc
  exact own_last_close (handle_conv h1.own) _ _ hc

/-- **C80**, partial: a connection whose goroutine has left its loop has been closed, unless a read has found that the client has closed it. -/
theorem C80_closed_partial {sv : Server} {clock : Int} {tr : List SEv} {s : Sys} (h : Sys.Run (Sys.new sv clock) tr s) {c : Nat} {k : ConnG}
    (hk : s.conns[c]? = some k) (he : ∀ p, k.pc ≠ .body p) (hr : (⟨.recv, .closed⟩ : REv) ∉ actsOf c tr) : (⟨.close, ()⟩ : REv) ∈ actsOf c tr := by
  obtain ⟨l0, h1 | h1⟩ := C49_mock_closes h hk he
  · rw [h1]; simp
  · rw [h1] at hr; simp at hr

/-- A connection goroutine that has ended does nothing more. -/
theorem ended_silent {s s' : Sys} {tr : List SEv} (h : Sys.Run s tr s') {c : Nat} {k : ConnG} (hk : s.conns[c]? = some k) (hp : k.pc = .ended) :
    actsOf c tr = [] ∧ s'.conns[c]? = some k := by
  induction h with
  | nil => exact ⟨rfl, hk⟩
  | @cons s s1 s2 e es h hs ih =>
    have he : e.of ≠ some (.conn c) := by
      intro he
      obtain ⟨k', h1, h2⟩ := step_conn_self h he
      rw [hk] at h1; cases h1
      cases h2 with
      | act hp' => rw [hp] at hp'; cases hp'
      | loop hp' => rw [hp] at hp'; cases hp'
      | ret hp' => rw [hp] at hp'; cases hp'
      | oc hp' => rw [hp] at hp'; cases hp'
    obtain ⟨h1, h2⟩ := ih (step_conn_other h hk he)
    refine ⟨?_, h2⟩
    rw [show e :: es = [e] ++ es from rfl, actsOf_append, h1, List.append_nil]
    unfold actsOf
    rw [List.filterMap_cons, List.filterMap_nil]
    cases e with
    | conn c' a r =>
      by_cases hcc : c' = c
      · subst hcc; exact absurd rfl he
      · simp [hcc]
    | _ => rfl

/-- **C80** is false: two clients connect, the first one leaves. Its goroutine ends without closing the connection, nothing that happens later closes it, and it is still
in the mock's table of clients. -/
theorem C80_false : ∃ (tr : List SEv) (s : Sys) (k : ConnG), Sys.Run (Sys.new ⟨9092, []⟩ 0) tr s ∧ s.conns[0]? = some k ∧ k.pc = .ended ∧ (1, 0) ∈ s.clients ∧
    ∀ tr' s', Sys.Run s tr' s' → (⟨.close, ()⟩ : REv) ∉ actsOf 0 (tr ++ tr') := by
  refine ⟨_, _, _, stateAfter_run twoClients _, rfl, rfl, List.mem_cons_self, fun tr' s' h hm => ?_⟩
  rw [actsOf_append, (ended_silent h rfl rfl).1, List.append_nil] at hm
  revert hm
  have : (actsOf 0 (eventsOf twoClients (Sys.new ⟨9092, []⟩ 0))).any closesConn = false := by decide +kernel
  intro hm
  rw [List.any_eq_false] at this
  exact this _ hm rfl

/-- The hypotheses of `C80_last_partial` and `C80_closed_partial`: the mock is stopped, and closes its connection. -/
example : ∃ tr s k, Sys.Run (Sys.new ⟨9092, []⟩ 0) tr s ∧ s.conns[0]? = some k ∧ k.pc = .oc .lock ∧ actsOf 0 tr = [⟨.isDone, true⟩] ++ ⟨.close, ()⟩ :: [] := by
  exact ⟨_, _, _, stateAfter_run (starts 0 ++ opens 0 ++ accepts 0 ++ caller 1 .requestStop 8 ++ [.run 0] ++ windsUp 0) _, rfl, rfl, rfl⟩

end KM.Props
