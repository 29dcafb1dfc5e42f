import Verif.LifeSim
import Verif.Refine
import Verif.Halts
/-
The latency hook: `kc.latency`, /repo/kafka-client.go:27, 69, 89-91, taken from `km.latency`, /repo/kafka-mock.go:29, 150. It is zero unless a test of the package
sets it; `Dispatch.lean` and `Lifecycle.lean` leave it out. Here each connection may have a latency of its own, and every run is shown to be a run of the mock without the hook,
in which time passes instead of the sleep.
-/
namespace KM

/-- One round of the loop of /repo/kafka-client.go:88-139 with latency `d` (lines 89-91). -/
def delayedBody (sv : Server) (d : Nat) (inbound : Bytes) : Prog (Bytes ⊕ Unit) :=
  if d = 0 then handleBody sv inbound else .act (.sleep d) fun _ => handleBody sv inbound

/-- `handle`, /repo/kafka-client.go:78-140, with latency `d`. -/
def delayedHandle (sv : Server) (d : Nat) : Prog Unit := .loop ([] : Bytes) (delayedBody sv d) .ret

/-- A step of the mock with latencies: like a step of the mock, but a connection that is accepted (/repo/kafka-mock.go:150) gets some latency. (`km.latency` may be
changed at any time; a negative one is the same as zero.) -/
inductive Late.Step : Sys → SEv → Sys → Prop where
  | same {s s' : Sys} {e : SEv} (h : Sys.Step s e s') (hn : s'.conns.length = s.conns.length) : Step s e s'
  | accept {s s' : Sys} {e : SEv} {k : ConnG} (h : Sys.Step s e s') (hn : s'.conns = s.conns ++ [k]) (d : Nat) :
      Step s e { s' with conns := s.conns ++ [{ k with pc := .body (delayedHandle s.sv d) }] }

inductive Late.Run : Sys → List SEv → Sys → Prop where
  | nil (s : Sys) : Run s [] s
  | cons {s s1 s2 : Sys} {e : SEv} {es : List SEv} (h : Step s e s1) (hs : Run s1 es s2) : Run s (e :: es) s2

/-- What comes after a round. -/
def roundEnd (body : Bytes → Prog (Bytes ⊕ Unit)) : Bytes ⊕ Unit → Prog Unit
  | .inl s => .loop s body .ret
  | .inr b => .ret b

theorem unroll_round (body : Bytes → Prog (Bytes ⊕ Unit)) (s : Bytes) : Prog.unroll s body .ret = (body s).bind (roundEnd body) := by
  unfold Prog.unroll
  congr; funext x; cases x <;> rfl

/-- The program of a connection with latency, and that of the same connection without. -/
inductive SameBut (sv : Server) : Prog Unit → Prog Unit → Prop where
  | round (d : Nat) (x : Prog (Bytes ⊕ Unit)) : SameBut sv (x.bind (roundEnd (delayedBody sv d))) (x.bind (roundEnd (handleBody sv)))
  | asleep (d : Nat) (hd : d ≠ 0) (inb : Bytes) :
      SameBut sv (.act (.sleep d) fun _ => (handleBody sv inb).bind (roundEnd (delayedBody sv d))) (.loop inb (handleBody sv) .ret)

/-- Likewise for the state of the connection's goroutine. -/
inductive SamePc (sv : Server) : ConnPc → ConnPc → Prop where
  | body {p q : Prog Unit} (h : SameBut sv p q) : SamePc sv (.body p) (.body q)
  | other (pc : ConnPc) (h : ∀ p, pc ≠ .body p) : SamePc sv pc pc

/-- With other connection programs and another list of cancelled contexts. -/
def Sys.but (s : Sys) (l : List ConnG) (dn : List Nat) : Sys := { s with conns := l, done := dn }

/-- The mock with latencies in state `s`, and without in state `s.but l dn`: they agree but for the programs of the connections, and agree on which contexts are
cancelled. -/
structure SameSys (s : Sys) (l : List ConnG) (dn : List Nat) : Prop where
  done : ∀ c, (s.but l dn).isDone c = s.isDone c
  len : l.length = s.conns.length
  conns : ∀ {c : Nat} {k : ConnG}, s.conns[c]? = some k → ∃ pc, l[c]? = some { k with pc := pc } ∧ SamePc s.sv k.pc pc

theorem isDone_cons {s : Sys} {l : List ConnG} {dn : List Nat} (h : ∀ c, (s.but l dn).isDone c = s.isDone c) (x c : Nat) :
    (({ s with done := x :: s.done } : Sys).but l (x :: dn)).isDone c = ({ s with done := x :: s.done } : Sys).isDone c := by
  have := h c
  simp only [Sys.isDone, Sys.but, List.contains_cons] at this ⊢
  cases hp : s.parentDone
  · rw [hp] at this
    simp only [Bool.false_or] at this ⊢
    rw [this]
  · simp

theorem apiStep_but {s s' : Sys} {i : Nat} {c : Call} (l : List ConnG) (dn : List Nat) (hn : s.apiStep i c = .ok s')
    (hd : ∀ c, (s.but l dn).isDone c = s.isDone c) :
    s'.conns = s.conns ∧ s'.sv = s.sv ∧ ∃ dn', (s.but l dn).apiStep i c = .ok (s'.but l dn') ∧ ∀ c, (s'.but l dn').isDone c = s'.isDone c := by
  unfold Sys.apiStep at hn ⊢
  simp only [Sys.but] at *
  cases hp : s.api i with
  | idle => rw [hp] at hn; cases hn; exact ⟨rfl, rfl, dn, rfl, hd⟩
  | panicked => rw [hp] at hn; cases hn; exact ⟨rfl, rfl, dn, rfl, hd⟩
  | start k r =>
    rw [hp] at hn
    dsimp only at hn ⊢
    cases k <;> simp only [Sys.startStep, Sys.lockMu] at hn ⊢ <;> (try (split at hn <;> rename_i hc)) <;> cases hn <;>
      first
        | exact ⟨rfl, rfl, dn, rfl, hd⟩
        | exact ⟨rfl, rfl, dn, (by first | rw [if_pos hc]; rfl | rw [if_neg hc]; rfl), hd⟩
  | stop k b =>
    rw [hp] at hn
    dsimp only at hn ⊢
    cases k with
    | swap => simp only [Sys.stopStep] at hn ⊢; cases hn; exact ⟨rfl, rfl, dn, rfl, hd⟩
    | load => simp only [Sys.stopStep] at hn ⊢; cases hn; exact ⟨rfl, rfl, dn, rfl, hd⟩
    | init k => cases k <;> simp only [Sys.stopStep, Sys.waitStep] at hn ⊢ <;> cases hn <;> exact ⟨rfl, rfl, dn, rfl, hd⟩
    | lock =>
      simp only [Sys.stopStep, Sys.lockMu] at hn ⊢
      split at hn <;> cases hn
      next hc => exact ⟨rfl, rfl, dn, (if_pos hc).trans rfl, hd⟩
    | close =>
      simp only [Sys.stopStep] at hn ⊢
      split at hn <;> cases hn <;> next hc => exact ⟨rfl, rfl, dn, rfl, hd⟩
    | unlock => simp only [Sys.stopStep] at hn ⊢; cases hn; exact ⟨rfl, rfl, dn, rfl, hd⟩
    | cancel =>
      simp only [Sys.stopStep] at hn ⊢
      split at hn <;> cases hn
      · next x hc => exact ⟨rfl, rfl, x :: dn, rfl, isDone_cons hd x⟩
      · next hc => exact ⟨rfl, rfl, dn, rfl, hd⟩
  | wait k r =>
    rw [hp] at hn
    dsimp only at hn ⊢
    cases k <;> simp only [Sys.waitStep] at hn ⊢ <;> cases hn <;> exact ⟨rfl, rfl, dn, rfl, hd⟩
  | restartInit k =>
    rw [hp] at hn
    dsimp only at hn ⊢
    cases k <;> simp only [Sys.waitStep] at hn ⊢ <;> cases hn <;> exact ⟨rfl, rfl, dn, rfl, hd⟩
  | finish =>
    rw [hp] at hn
    dsimp only at hn ⊢
    split at hn <;> cases hn
    · next x hc => exact ⟨rfl, rfl, x :: dn, rfl, isDone_cons hd x⟩
    · next hc => exact ⟨rfl, rfl, dn, rfl, hd⟩
  | call p =>
    rw [hp] at hn
    cases p with
    | ret u => cases hn; exact ⟨rfl, rfl, dn, rfl, hd⟩
    | panic => cases hn
    | act => cases hn
    | loop => cases hn

theorem runStep_but {s s' : Sys} {g : Nat} {ok : Bool} (l : List ConnG) (dn : List Nat) (hn : s.runStep g ok = .ok s') (hl : l.length = s.conns.length)
    (hd : ∀ c, (s.but l dn).isDone c = s.isDone c) :
    s'.sv = s.sv ∧ (s'.done = s.done ∧ s'.parentDone = s.parentDone) ∧
      ((s'.conns = s.conns ∧ (s.but l dn).runStep g ok = .ok (s'.but l dn)) ∨
       ∃ n m x, s'.conns = s.conns ++ [⟨n, m, x, .body (handle s.sv)⟩] ∧
        (s.but l dn).runStep g ok = .ok (s'.but (l ++ [⟨n, m, x, .body (handle s.sv)⟩]) dn)) := by
  unfold Sys.runStep at hn ⊢
  cases hr : s.runs[g]? with
  | none => rw [hr] at hn; cases hn
  | some r =>
    rw [hr] at hn
    simp only [Sys.but] at *
    rw [hr]
    dsimp only at hn ⊢
    cases hp : r.pc <;> simp only [hp] at hn ⊢
    case listen => split at hn <;> cases hn; next hc => exact ⟨rfl, ⟨rfl, rfl⟩, .inl ⟨rfl, (if_pos hc).trans rfl⟩⟩
    case setListener => cases hn; exact ⟨rfl, ⟨rfl, rfl⟩, .inl ⟨rfl, rfl⟩⟩
    case initDone =>
      unfold Sys.initDone at hn ⊢
      dsimp only
      rcases hi : s.init with _ | _ | n <;> rw [hi] at hn <;> cases hn <;> exact ⟨rfl, ⟨rfl, rfl⟩, .inl ⟨rfl, rfl⟩⟩
    case accept =>
      split at hn
      · next hc => cases hn; exact ⟨rfl, ⟨rfl, rfl⟩, .inl ⟨rfl, (if_pos hc).trans rfl⟩⟩
      · next hc =>
        split at hn <;> cases hn
        next hc' => exact ⟨rfl, ⟨rfl, rfl⟩, .inl ⟨rfl, (if_neg hc).trans ((if_pos hc').trans rfl)⟩⟩
    case select =>
      cases hn
      refine ⟨rfl, ⟨rfl, rfl⟩, .inl ⟨rfl, ?_⟩⟩
      have : s.ctx.any ({ s with conns := l, done := dn } : Sys).isDone = s.ctx.any s.isDone := by
        cases s.ctx with
        | none => rfl
        | some x => exact hd x
      exact congrArg (fun b => Out.ok (({ s with conns := l, done := dn } : Sys).setRun g { pc := if (s.parentDone || b) = true then RunPc.accept else RunPc.lock, cxn := r.cxn })) this
    case lock => unfold Sys.lockMu at hn ⊢; split at hn <;> cases hn; next hc => exact ⟨rfl, ⟨rfl, rfl⟩, .inl ⟨rfl, (if_pos hc).trans rfl⟩⟩
    case register => cases hn; exact ⟨rfl, ⟨rfl, rfl⟩, .inr ⟨_, _, _, rfl, by rw [hl]⟩⟩
    case addActive => cases hn; exact ⟨rfl, ⟨rfl, rfl⟩, .inl ⟨rfl, rfl⟩⟩
    case addWg => cases hn; exact ⟨rfl, ⟨rfl, rfl⟩, .inl ⟨rfl, rfl⟩⟩
    case unlock => cases hn; exact ⟨rfl, ⟨rfl, rfl⟩, .inl ⟨rfl, rfl⟩⟩
    case waitActive => split at hn <;> cases hn; next hc => exact ⟨rfl, ⟨rfl, rfl⟩, .inl ⟨rfl, (if_pos hc).trans rfl⟩⟩
    case storeStarted => cases hn; exact ⟨rfl, ⟨rfl, rfl⟩, .inl ⟨rfl, rfl⟩⟩
    case wgDone =>
      unfold Sys.wgDone at hn ⊢
      dsimp only
      rcases hi : s.wg with _ | _ | n <;> rw [hi] at hn <;> cases hn <;> exact ⟨rfl, ⟨rfl, rfl⟩, .inl ⟨rfl, rfl⟩⟩
    case ended => cases hn

theorem activeDone_but {s s' : Sys} (l : List ConnG) (dn : List Nat) (h : s.activeDone = .ok s') :
    s'.conns = s.conns ∧ s'.sv = s.sv ∧ (∀ c, s'.isDone c = s.isDone c ∧ (s'.but l dn).isDone c = (s.but l dn).isDone c) ∧
      (s.but l dn).activeDone = .ok (s'.but l dn) := by
  unfold Sys.activeDone at h ⊢
  simp only [Sys.but] at *
  rcases hi : s.active with _ | n <;> rw [hi] at h <;> cases h
  exact ⟨rfl, rfl, fun _ => ⟨rfl, rfl⟩, rfl⟩

theorem wgDone_but {s s' : Sys} (l : List ConnG) (dn : List Nat) (h : s.wgDone = .ok s') :
    s'.conns = s.conns ∧ s'.sv = s.sv ∧ (∀ c, s'.isDone c = s.isDone c ∧ (s'.but l dn).isDone c = (s.but l dn).isDone c) ∧
      (s.but l dn).wgDone = .ok (s'.but l dn) := by
  unfold Sys.wgDone at h ⊢
  simp only [Sys.but] at *
  rcases hi : s.wg with _ | _ | n <;> rw [hi] at h <;> cases h <;> exact ⟨rfl, rfl, fun _ => ⟨rfl, rfl⟩, rfl⟩

/-- After connection `c` has moved on in both. -/
theorem SameSys.set {s : Sys} {l : List ConnG} {dn : List Nat} (h : SameSys s l dn) (s1 : Sys) (dn' : List Nat) (hd : ∀ c, (s1.but l dn').isDone c = s1.isDone c)
    (hsv : s1.sv = s.sv) (hc : s1.conns = s.conns) {c kg kn kx : Nat} {kp pc pc' : ConnPc} (hk : s.conns[c]? = some ⟨kg, kn, kx, kp⟩) (hp : SamePc s.sv pc pc') :
    SameSys (s1.setConn c ⟨kg, kn, kx, pc⟩) (l.set c ⟨kg, kn, kx, pc'⟩) dn' where
  done := hd
  len := by simp only [Sys.setConn, hc, List.length_set, h.len]
  conns {c' k'} hk' := by
    simp only [Sys.setConn, hc, hsv] at hk' ⊢
    by_cases e : c = c'
    · subst e
      have hlt := (List.getElem?_eq_some_iff.1 hk).1
      rw [List.getElem?_set_self hlt] at hk'
      cases hk'
      exact ⟨pc', List.getElem?_set_self (h.len ▸ hlt), hp⟩
    · rw [List.getElem?_set_ne e] at hk'
      rw [List.getElem?_set_ne e]
      exact h.conns hk'

/-- After the rest has moved on. -/
theorem SameSys.keep {s s' : Sys} {l : List ConnG} {dn dn' : List Nat} (h : SameSys s l dn) (hd : ∀ c, (s'.but l dn').isDone c = s'.isDone c) (hsv : s'.sv = s.sv)
    (hc : s'.conns = s.conns) : SameSys s' l dn' where
  done := hd
  len := by rw [hc, h.len]
  conns hk := by rw [hc] at hk; rw [hsv]; exact h.conns hk

/-- A connection with latency that has left its loop has also left it without. -/
theorem SameBut.ret {sv : Server} {q : Prog Unit} (h : SameBut sv (.ret ()) q) : q = .ret () := by
  generalize hp : (Prog.ret () : Prog Unit) = p at h
  cases h with
  | round d x =>
    cases x with
    | ret v => cases v with
      | inl => cases hp
      | inr => rfl
    | panic => cases hp
    | act => cases hp
    | loop => cases hp
  | asleep => cases hp

theorem connStep_but {s s' : Sys} {c : Nat} {l : List ConnG} {dn : List Nat} (h : SameSys s l dn) (hn : s.connStep c = .ok s') :
    ∃ l', (s.but l dn).connStep c = .ok (s'.but l' dn) ∧ SameSys s' l' dn := by
  unfold Sys.connStep at hn ⊢
  cases hk : s.conns[c]? with
  | none => rw [hk] at hn; cases hn
  | some k =>
    rw [hk] at hn
    obtain ⟨pc, hl, hs⟩ := h.conns hk
    have hl' : (s.but l dn).conns[c]? = _ := hl
    rw [hl']
    obtain ⟨kg, kn, kx, kp⟩ := k
    dsimp only at hn hs hl ⊢
    have other : ∀ o : OcPc, SamePc s.sv (.oc o) (.oc o) := fun o => .other _ fun _ h => by cases h
    cases hs with
    | @body p q hb =>
      cases p with
      | ret u => cases hb.ret; cases hn; exact ⟨_, rfl, h.set s dn h.done rfl rfl hk (other _)⟩
      | panic => cases hn
      | act => cases hn
      | loop => cases hn
    | other _ hne =>
      cases pc with
      | body p => exact (hne p rfl).elim
      | ended => cases hn
      | oc o =>
        cases o with
        | lock =>
          simp only [Sys.lockMu] at hn ⊢
          split at hn <;> cases hn
          next hm => exact ⟨_, (if_pos hm).trans rfl, h.set { s with mu := some (.conn c) } dn h.done rfl rfl hk (other _)⟩
        | delete =>
          dsimp only [Sys.but] at hn ⊢
          cases hr : s.runs[kg]? with
          | none => rw [hr] at hn; cases hn
          | some r => rw [hr] at hn; cases hn; exact ⟨_, rfl, h.set { s with clients := GoMap.erase s.clients r.cxn } dn h.done rfl rfl hk (other _)⟩
        | active =>
          dsimp only at hn ⊢
          cases ha : s.activeDone with
          | ok s1 =>
            rw [ha] at hn
            obtain ⟨e1, e2, e3, e4⟩ := activeDone_but l dn ha
            rw [e4]
            cases hn
            exact ⟨_, rfl, h.set s1 dn (fun c => by rw [(e3 c).2, (e3 c).1]; exact h.done c) e2 e1 hk (other _)⟩
          | blocked => rw [ha] at hn; cases hn
          | crash => rw [ha] at hn; cases hn
        | wg =>
          dsimp only at hn ⊢
          cases ha : s.wgDone with
          | ok s1 =>
            rw [ha] at hn
            obtain ⟨e1, e2, e3, e4⟩ := wgDone_but l dn ha
            rw [e4]
            cases hn
            exact ⟨_, rfl, h.set s1 dn (fun c => by rw [(e3 c).2, (e3 c).1]; exact h.done c) e2 e1 hk (other _)⟩
          | blocked => rw [ha] at hn; cases hn
          | crash => rw [ha] at hn; cases hn
        | unlock => cases hn; exact ⟨_, rfl, h.set { s with mu := none } dn h.done rfl rfl hk (.other _ fun _ h => by cases h)⟩

theorem connStep_length {s s' : Sys} {c : Nat} (hn : s.connStep c = .ok s') : s'.conns.length = s.conns.length := by
  have h : Sys.Step s (.life (.conn c)) s' := .life (c := .conn c) hn
  unfold Sys.connStep at hn
  split at hn
  · cases hn
  split at hn
  · cases hn; exact List.length_set ..
  · cases hn
  · cases hn
  · unfold Sys.lockMu at hn; split at hn <;> cases hn; exact List.length_set ..
  · split at hn <;> cases hn; exact List.length_set ..
  · cases ha : s.activeDone <;> rw [ha] at hn <;> cases hn
    simp only [Sys.setConn, List.length_set, (activeDone_but [] [] ha).1]
  · cases ha : s.wgDone <;> rw [ha] at hn <;> cases hn
    simp only [Sys.setConn, List.length_set, (wgDone_but [] [] ha).1]
  · cases hn; exact List.length_set ..
  · cases hn

/-- What the mock does with latencies, and what it does without: where the first enters a round, the second may still be about to; where the first ends its sleep, the
second lets time pass and enters the round. -/
inductive Delays : List SEv → List SEv → Prop where
  | nil : Delays [] []
  | same (e : SEv) {l m : List SEv} (h : Delays l m) : Delays (e :: l) (e :: m)
  | unroll (c : Nat) {l m : List SEv} (h : Delays l m) : Delays (.unroll c :: l) m
  | sleep (c d t : Nat) (hd : d ≤ t) {l m : List SEv} (h : Delays l m) : Delays (.conn c (.sleep d) () :: l) (.tick t :: .unroll c :: m)

theorem setView_but {s : Sys} {l : List ConnG} {dn : List Nat} (h : SameSys s l dn) (x : Nat) (w : World) :
    ∃ dn', (s.but l dn).setView x w = (s.setView x w).but l dn' ∧ ∀ c, ((s.setView x w).but l dn').isDone c = (s.setView x w).isDone c := by
  unfold Sys.setView
  cases w.cancelled with
  | true => exact ⟨x :: dn, rfl, isDone_cons (s := { s with ds := w.ds, clock := w.clock }) h.done x⟩
  | false => exact ⟨dn, rfl, h.done⟩

theorem setView_done {s : Sys} {x : Nat} (w : World) (hw : w.cancelled = s.isDone x) (c : Nat) : (s.setView x w).isDone c = s.isDone c := by
  unfold Sys.setView Sys.isDone at *
  cases hc : w.cancelled with
  | false => rfl
  | true =>
    rw [hc] at hw
    simp only [if_true, List.contains_cons]
    by_cases e : c = x
    · subst e; rw [beq_self_eq_true, Bool.true_or, Bool.or_true]; exact hw
    · rw [show (c == x) = false from beq_eq_false_iff_ne.2 e, Bool.false_or]

/-- A step of the mock with latencies is none, one or two steps of the mock without. -/
theorem late_step {s s' : Sys} {e : SEv} {l : List ConnG} {dn : List Nat} (h : SameSys s l dn) (hs : Late.Step s e s') :
    ∃ es l' dn', Sys.Run (s.but l dn) es (s'.but l' dn') ∧ SameSys s' l' dn' ∧ ∀ {l m : List SEv}, Delays l m → Delays (e :: l) (es ++ m) := by
  have one : ∀ {t : Sys}, Sys.Step (s.but l dn) e t → Sys.Run (s.but l dn) [e] t := fun h => .cons h (.nil _)
  cases hs with
  | @accept s' _ k hst hn d =>
    have no {P : Prop} (e : s'.conns = s.conns) : P := by
      rw [e] at hn
      have := congrArg List.length hn
      simp at this
    cases hst with
    | @life _ ch hx =>
      cases ch with
      | run g ok =>
        obtain ⟨esv, edn, ⟨ec, _⟩ | ⟨n, m, x, ec, er⟩⟩ := runStep_but l dn hx h.len h.done
        · rw [ec] at hn
          have := congrArg List.length hn
          simp at this
        · rw [ec] at hn
          have hk := List.append_cancel_left hn
          cases hk
          refine ⟨[_], l ++ [⟨n, m, x, .body (handle s.sv)⟩], dn, one (.life (c := .run g ok) (er.trans rfl)), ?_, fun h => .same _ h⟩
          refine ⟨fun c => ?_, by simp [h.len], fun {c k} hk => ?_⟩
          · have := h.done c
            simp only [Sys.isDone, Sys.but] at this ⊢
            rw [edn.1, edn.2]; exact this
          · dsimp only at hk
            by_cases hlt : c < s.conns.length
            · rw [List.getElem?_append_left hlt] at hk
              rw [List.getElem?_append_left (h.len ▸ hlt)]
              dsimp only
              rw [esv]
              exact h.conns hk
            · rw [List.getElem?_append_right (by omega)] at hk
              rw [List.getElem?_append_right (by rw [h.len]; omega), h.len]
              dsimp only
              rw [esv]
              cases hi : c - s.conns.length with
              | succ => rw [hi] at hk; cases hk
              | zero =>
                rw [hi] at hk
                cases hk
                exact ⟨_, rfl, .body (.round d (.ret (.inl [])))⟩
      | api i c => exact no (apiStep_but l dn hx h.done).1
      | conn c =>
        obtain ⟨l', er, h'⟩ := connStep_but h hx
        have := congrArg List.length hn
        rw [connStep_length hx] at this
        simp at this
      | parentCancel => cases hx; exact no rfl
    | conn =>
      have := congrArg List.length hn
      simp [Sys.setConn, Sys.setView] at this
    | unroll =>
      have := congrArg List.length hn
      simp [Sys.setConn] at this
    | call => exact no rfl
    | tick => exact no rfl
  | same hst hn =>
    cases hst with
    | @life _ ch hx =>
      cases ch with
      | run g ok =>
        obtain ⟨esv, edn, ⟨ec, er⟩ | ⟨n, m, x, ec, er⟩⟩ := runStep_but l dn hx h.len h.done
        · refine ⟨[_], l, dn, one (.life (c := .run g ok) er), h.keep (fun c => ?_) esv ec, fun h => .same _ h⟩
          have := h.done c
          simp only [Sys.isDone, Sys.but] at this ⊢
          rw [edn.1, edn.2]; exact this
        · rw [ec] at hn
          simp at hn
      | api i c =>
        obtain ⟨ec, esv, dn', er, ed⟩ := apiStep_but l dn hx h.done
        exact ⟨[_], l, dn', one (.life (c := .api i c) er), h.keep ed esv ec, fun h => .same _ h⟩
      | conn c =>
        obtain ⟨l', er, h'⟩ := connStep_but h hx
        exact ⟨[_], l', dn, one (.life (c := .conn c) er), h', fun h => .same _ h⟩
      | parentCancel =>
        cases hx
        exact ⟨[_], l, dn, one (.life (c := .parentCancel) rfl), h.keep (fun _ => rfl) rfl rfl, fun h => .same _ h⟩
    | @conn c k a f r w hc hp ha =>
      obtain ⟨pc, hl, hs⟩ := h.conns hc
      obtain ⟨kg, kn, kx, kp⟩ := k
      dsimp only at hp hl hs ha hn ⊢
      subst hp
      have hv : (s.but l dn).view kx = s.view kx := by simp only [Sys.view, h.done kx]; rfl
      cases hs with
      | other _ hne => exact (hne _ rfl).elim
      | @body _ q hb =>
        generalize hp : Prog.act a f = p at hb
        cases hb with
        | round d x =>
          cases x with
          | ret v => cases v <;> cases hp
          | panic => cases hp
          | loop => cases hp
          | act a' f' =>
            cases hp
            obtain ⟨dn', e1, e2⟩ := setView_but h kx w
            have hst := Sys.Step.conn (s := s.but l dn) (k := ⟨kg, kn, kx, _⟩) hl rfl (hv ▸ ha)
            dsimp only at hst
            rw [e1] at hst
            exact ⟨[_], _, dn', one hst, h.set _ dn' e2 rfl rfl hc (.body (.round d (f' r))), fun h => .same _ h⟩
        | asleep d hd inb =>
          cases hp
          obtain ⟨t, ht, rfl⟩ := ha
          have htn : s.clock + ((t - s.clock).toNat : Nat) = t := by
            have : s.clock + (d : Int) ≤ t := ht
            omega
          have hle : d ≤ (t - s.clock).toNat := by
            have : s.clock + (d : Int) ≤ t := ht
            omega
          have h1 := Sys.Step.tick (s := s.but l dn) (t - s.clock).toNat
          have h2 := Sys.Step.unroll (s := { s.but l dn with clock := t }) (k := ⟨kg, kn, kx, _⟩) hl rfl
          rw [show (s.but l dn).clock = s.clock from rfl, htn] at h1
          have hd' : ∀ c, ((s.setView kx { s.view kx with clock := t }).but l dn).isDone c = (s.setView kx { s.view kx with clock := t }).isDone c := fun c => by
            exact (h.done c).trans (setView_done _ rfl c).symm
          have h3 := h.set (s.setView kx { s.view kx with clock := t }) dn hd' rfl rfl hc (SamePc.body (SameBut.round d (handleBody s.sv inb)))
          rw [unroll_round] at h2
          exact ⟨[.tick _, .unroll c], _, dn, .cons h1 (.cons h2 (.nil _)), h3, fun h => .sleep c d _ hle h⟩
    | @unroll c k σ β x body f hc hp =>
      obtain ⟨pc, hl, hs⟩ := h.conns hc
      obtain ⟨kg, kn, kx, kp⟩ := k
      dsimp only at hp hl hs hn ⊢
      subst hp
      cases hs with
      | other _ hne => exact (hne _ rfl).elim
      | @body _ q hb =>
        generalize hp : Prog.loop x body f = p at hb
        cases hb with
        | asleep => cases hp
        | round d y =>
          cases y with
          | panic => cases hp
          | act => cases hp
          | loop y body' f' =>
            cases hp
            refine ⟨[_], _, dn, one (.unroll (k := ⟨kg, kn, kx, _⟩) hl rfl), h.set s dn h.done rfl rfl hc (.body ?_), fun h => .same _ h⟩
            rw [← unroll_bind, ← unroll_bind]
            exact .round d _
          | ret v =>
            cases v with
            | inr => cases hp
            | inl inb =>
              cases hp
              by_cases hd : d = 0
              · refine ⟨[_], _, dn, one (.unroll (k := ⟨kg, kn, kx, _⟩) hl rfl), h.set s dn h.done rfl rfl hc (.body ?_), fun h => .same _ h⟩
                rw [unroll_round, unroll_round]
                subst hd
                exact .round 0 (handleBody s.sv inb)
              · refine ⟨[], l, dn, .nil _, ?_, fun h => .unroll _ h⟩
                have h1 := h.set s dn h.done rfl rfl hc (SamePc.body (SameBut.asleep (sv := s.sv) d hd inb))
                rw [show l.set c ⟨kg, kn, kx, .body (.loop inb (handleBody s.sv) .ret)⟩ = l from ?_] at h1
                · rw [unroll_round]
                  unfold delayedBody at h1 ⊢
                  rw [if_neg hd]
                  exact h1
                · obtain ⟨hlt, e⟩ := List.getElem?_eq_some_iff.1 hl
                  rw [show (⟨kg, kn, kx, .body (.loop inb (handleBody s.sv) .ret)⟩ : ConnG) = l[c] from e.symm, List.set_getElem_self]
    | @call i a f r w hp ha =>
      have hv : (s.but l dn).view 0 = s.view 0 := by simp only [Sys.view, h.done 0]; rfl
      exact ⟨[_], l, dn, one (.call (s := s.but l dn) hp (hv ▸ ha)), h.keep h.done rfl rfl, fun h => .same _ h⟩
    | tick d => exact ⟨[_], l, dn, one (.tick d), h.keep h.done rfl rfl, fun h => .same _ h⟩

/-- Every run of the mock with latencies is a run of the mock without, in which time passes instead of the sleeps. -/
theorem late_run {s s' : Sys} {tr : List SEv} (h : Late.Run s tr s') {l : List ConnG} {dn : List Nat} (hs : SameSys s l dn) :
    ∃ tr' l' dn', Sys.Run (s.but l dn) tr' (s'.but l' dn') ∧ SameSys s' l' dn' ∧ Delays tr tr' := by
  induction h generalizing l dn with
  | nil s => exact ⟨[], l, dn, .nil _, hs, .nil⟩
  | cons h _ ih =>
    obtain ⟨es, l1, dn1, h1, hs1, hd⟩ := late_step hs h
    obtain ⟨tr', l2, dn2, h2, hs2, hd2⟩ := ih hs1
    exact ⟨es ++ tr', l2, dn2, h1.append h2, hs2, hd hd2⟩

/-- A connection with latency that is at a panic is at the same panic without. -/
theorem SameBut.panic {sv : Server} {q : Prog Unit} (h : SameBut sv .panic q) : q = .panic := by
  generalize hp : (Prog.panic : Prog Unit) = p at h
  cases h with
  | round d x =>
    cases x with
    | ret v => cases v <;> cases hp
    | panic => rfl
    | act => cases hp
    | loop => cases hp
  | asleep => cases hp

/-- What ends the process with latencies ends it without. -/
theorem late_crash {s : Sys} {l : List ConnG} {dn : List Nat} (h : SameSys s l dn) {ch : Sys.Choice} {x : Crash} (hx : s.next ch = .crash x) :
    (s.but l dn).next ch = .crash x := by
  cases ch with
  | parentCancel => cases hx
  | api i c =>
    simp only [Sys.next] at hx ⊢
    unfold Sys.apiStep at hx ⊢
    rw [show (s.but l dn).api = s.api from rfl]
    cases hp : s.api i with
    | call p =>
      rw [hp] at hx
      cases p with
      | panic => exact hx
      | ret => cases hx
      | act => cases hx
      | loop => cases hx
    | stop k b =>
      rw [hp] at hx
      cases k <;> simp only [Sys.stopStep, Sys.lockMu, Sys.waitStep] at hx <;> (try split at hx) <;> cases hx
    | start k r =>
      rw [hp] at hx
      cases k <;> simp only [Sys.startStep, Sys.lockMu] at hx <;> (try split at hx) <;> cases hx
    | idle => rw [hp] at hx; cases hx
    | panicked => rw [hp] at hx; cases hx
    | wait k r => rw [hp] at hx; cases k <;> cases hx
    | restartInit k => rw [hp] at hx; cases k <;> cases hx
    | finish => rw [hp] at hx; dsimp only at hx; split at hx <;> cases hx
  | run g ok =>
    simp only [Sys.next] at hx ⊢
    unfold Sys.runStep at hx ⊢
    rw [show (s.but l dn).runs = s.runs from rfl]
    cases hr : s.runs[g]? with
    | none => rw [hr] at hx; cases hx
    | some r =>
      rw [hr] at hx
      dsimp only at hx ⊢
      cases hp : r.pc <;> simp only [hp] at hx ⊢
      case listen => split at hx <;> cases hx; next hc => exact if_neg hc
      case initDone =>
        unfold Sys.initDone at hx ⊢
        rw [show (s.but l dn).init = s.init from rfl]
        rcases hi : s.init with _ | _ | n <;> rw [hi] at hx <;> cases hx; rfl
      case accept =>
        rw [show (s.but l dn).closes = s.closes from rfl]
        split at hx
        · cases hx
        · next hc =>
          split at hx <;> cases hx
          next hc' => rw [if_neg hc, if_neg hc']
      case wgDone =>
        unfold Sys.wgDone at hx ⊢
        rw [show (s.but l dn).wg = s.wg from rfl]
        rcases hi : s.wg with _ | _ | n <;> rw [hi] at hx <;> cases hx; rfl
      case lock => unfold Sys.lockMu at hx; split at hx <;> cases hx
      case waitActive => split at hx <;> cases hx
      all_goals cases hx
  | conn c =>
    simp only [Sys.next] at hx ⊢
    unfold Sys.connStep at hx ⊢
    cases hk : s.conns[c]? with
    | none => rw [hk] at hx; cases hx
    | some k =>
      rw [hk] at hx
      obtain ⟨pc, hl, hs⟩ := h.conns hk
      have hl' : (s.but l dn).conns[c]? = _ := hl
      rw [hl']
      obtain ⟨kg, kn, kx, kp⟩ := k
      dsimp only at hx hs hl ⊢
      cases hs with
      | @body p q hb =>
        cases p with
        | ret u => cases hx
        | panic => cases hb.panic; exact hx
        | act => cases hx
        | loop => cases hx
      | other _ hne =>
        cases pc with
        | body p => exact (hne p rfl).elim
        | ended => cases hx
        | oc o =>
          cases o with
          | lock => simp only [Sys.lockMu] at hx; split at hx <;> cases hx
          | delete => dsimp only at hx; split at hx <;> cases hx
          | active =>
            simp only [Sys.activeDone] at hx ⊢
            rw [show (s.but l dn).active = s.active from rfl]
            rcases hi : s.active with _ | n <;> rw [hi] at hx <;> cases hx; rfl
          | wg =>
            simp only [Sys.wgDone] at hx ⊢
            rw [show (s.but l dn).wg = s.wg from rfl]
            rcases hi : s.wg with _ | _ | n <;> rw [hi] at hx <;> cases hx; rfl
          | unlock => cases hx

end KM
