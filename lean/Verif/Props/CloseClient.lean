import Verif.CloseClient
import Verif.Props.Conn
import Verif.Props.Answered
/-
C86: what `Close` of a client achieves.
-/
set_option linter.unusedTactic false
namespace KM.Props
open Spec

variable {sv : Server} {w : World}

/-- Caller `i` has got past its wait for the requests in progress. -/
def PastRequests (s : CSys) (i : Nat) : Prop := s.callers i = .close ∨ (∃ k, s.callers i = .task k) ∨ s.callers i = .returned

theorem served_mono (l l' : List REv) : (served l).length ≤ (served (l ++ l')).length := by
  rw [served_append', List.length_append]; omega

/-- Only its own steps take a caller past the wait, and at that step no request is in progress. -/
theorem past_step {s s' : CSys} {e : CEv} {i : Nat} (h : CSys.Step s e s') (hp : PastRequests s' i) : PastRequests s i ∨ s.requests = 0 ∧ e = .caller i := by
  cases h with
  | @own a f r w hp' hr ha =>
    left
    have hp : PastRequests (s.effect a) i := hp
    cases a
    case reqEnd =>
      have he : (s.effect .reqEnd).callers = if s.requests = 1 then fun i => CSys.wakeRequests (s.callers i) else s.callers := rfl
      unfold PastRequests at hp ⊢
      rw [he] at hp
      split at hp
      · simp only [] at hp
        revert hp
        cases s.callers i with
        | requests k => cases k <;> simp [CSys.wakeRequests]
        | _ => simp [CSys.wakeRequests]
      · exact hp
    all_goals exact hp
  | round => exact .inl hp
  | ended =>
    left
    unfold PastRequests at hp ⊢
    dsimp only at hp
    cases hc : s.callers i with
    | task k => exact .inr (.inl ⟨k, rfl⟩)
    | _ => rw [hc] at hp; exact hp
  | @caller _ j h =>
    by_cases hj : i = j
    · subst hj
      simp only [CSys.callerStep] at h
      split at h
      all_goals first
        | (cases h; done)
        | (next hc => exact .inl (.inl hc))
        | (next hc => exact .inl (.inr (.inl ⟨_, hc⟩)))
        | (cases h
           unfold PastRequests CSys.setCaller at hp
           simp only [if_true] at hp
           first
             | (simp at hp; done)
             | (split at hp
                · next h0 => exact .inr ⟨h0, rfl⟩
                · simp at hp))
    · left
      have e : s'.callers i = s.callers i := by
        simp only [CSys.callerStep] at h
        split at h
        all_goals first
          | (cases h; done)
          | (cases h; exact if_neg hj)
      unfold PastRequests at hp ⊢
      rwa [e] at hp
  | env => exact .inl hp

theorem past_run {s s' : CSys} {l : List CEv} {i : Nat} (h : CSys.Run s l s') (hp : ¬ PastRequests s i) (hp' : PastRequests s' i) :
    ∃ l1 l2 s1, l = l1 ++ .caller i :: l2 ∧ CSys.Run s l1 s1 ∧ s1.requests = 0 := by
  induction h with
  | nil => exact absurd hp' hp
  | @cons s s1 s2 e es h hs ih =>
    by_cases h1 : PastRequests s1 i
    · rcases past_step h h1 with h2 | ⟨h2, rfl⟩
      · exact absurd h2 hp
      · exact ⟨[], es, s, rfl, .nil _, h2⟩
    · obtain ⟨l1, l2, s3, rfl, h3, h4⟩ := ih h1 hp'
      exact ⟨e :: l1, l2, s3, rfl, .cons h h3, h4⟩

/-- A caller that has not taken a step is before the first statement. -/
theorem caller_store {s s' : CSys} {l : List CEv} {i : Nat} (h : CSys.Run s l s') (hi : CEv.caller i ∉ l) (hs : s.callers i = .store) : s'.callers i = .store := by
  induction h with
  | nil => exact hs
  | @cons s s1 s2 e es h _ ih =>
    refine ih (fun hm => hi (List.mem_cons_of_mem _ hm)) ?_
    cases h with
    | @own a f r w hp' hr ha =>
      show (s.effect a).callers i = .store
      cases a
      case reqEnd =>
        have he : (s.effect .reqEnd).callers = if s.requests = 1 then fun i => CSys.wakeRequests (s.callers i) else s.callers := rfl
        rw [he]
        split
        · simp only [hs, CSys.wakeRequests]
        · exact hs
      all_goals exact hs
    | round => exact hs
    | ended => simp only [hs, CSys.wakeTask]
    | @caller _ j h =>
      have hj : i ≠ j := fun e => hi (e ▸ List.mem_cons_self ..)
      simp only [CSys.callerStep] at h
      split at h
      all_goals first
        | (cases h; done)
        | (cases h; exact (if_neg hj).trans hs)
    | env => exact hs

/-- **C86**: every request whose processing had begun when `Close` was called has been processed when `Close` closes the connection. -/
theorem C86_finished_partial {l1 l2 : List CEv} {s : CSys} {i : Nat} (h : CSys.Run (CSys.new sv w) (l1 ++ l2) s) (hi : .caller i ∉ l1) (hp : PastRequests s i) :
    (served (ownOf l1)).length ≤ ended (ownOf (l1 ++ l2)) := by
  obtain ⟨s1, h1, h2⟩ := h.split
  have hst := caller_store h1 hi rfl
  obtain ⟨a, b, s2, rfl, h3, h0⟩ := past_run h2 (fun hp => by unfold PastRequests at hp; rw [hst] at hp; simp at hp) hp
  have hc := (cinv (h1.append h3)).count
  rw [h0, Nat.zero_add] at hc
  have e : ownOf (l1 ++ (a ++ CEv.caller i :: b)) = ownOf (l1 ++ a) ++ ownOf b := by
    rw [← List.append_assoc, ownOf_append]; rfl
  rw [e, ended_append, hc, ownOf_append]
  have := served_mono (ownOf l1) (ownOf a)
  omega

theorem prog_none {s s' : CSys} {l : List CEv} (h : CSys.Run s l s') (hs : s.prog = none) : s'.prog = none ∧ ownOf l = [] := by
  induction h with
  | nil => exact ⟨hs, rfl⟩
  | @cons s s1 s2 e es h _ ih =>
    cases h with
    | own hp => rw [hs] at hp; cases hp
    | round hp => rw [hs] at hp; cases hp
    | ended hp => rw [hs] at hp; cases hp
    | @caller _ j h =>
      refine ih ?_
      simp only [CSys.callerStep] at h
      split at h
      all_goals first
        | (cases h; done)
        | (cases h; exact hs)
    | env => exact ih hs

/-- **C86**: when `Close` has returned, the connection is closed, and the goroutine of the client has ended and does nothing more. -/
theorem C86_returned_partial {l l' : List CEv} {s s' : CSys} {i : Nat} (h : CSys.Run (CSys.new sv w) l s) (hi : s.callers i = .returned) (h' : CSys.Run s l' s') :
    s.prog = none ∧ s.isOpen = false ∧ ownOf l' = [] := by
  have hc := cinv h
  have hn := hc.task i (.inr hi)
  exact ⟨hn, hc.shut i (.inr hi), (prog_none h' hn).2⟩

theorem stopping_run {s s' : CSys} {l : List CEv} (h : CSys.Run s l s') (hs : s.stopping = true) : s'.stopping = true ∧ ∀ e ∈ ownOf l, e ≠ ⟨.isStopping, false⟩ := by
  induction h with
  | nil => exact ⟨hs, nofun⟩
  | @cons s s1 s2 e es h _ ih =>
    cases h with
    | @own a f r w hp' hr ha =>
      have hs1 : (s.effect a).stopping = true := by cases a <;> exact hs
      obtain ⟨i1, i2⟩ := ih hs1
      refine ⟨i1, fun e he => ?_⟩
      rcases List.mem_cons.1 he with rfl | he
      · intro e
        cases e
        rw [show s.stopping = false from hr.symm] at hs
        cases hs
      · exact i2 e he
    | round => exact ih hs
    | ended => exact ih hs
    | @caller _ j h =>
      refine ih ?_
      simp only [CSys.callerStep] at h
      split at h
      all_goals first
        | (cases h; done)
        | (cases h; first | rfl | exact hs)
    | env => exact ih hs

theorem received_stays {l l' : List REv} (h : ∀ e ∈ l', e ≠ ⟨.isStopping, false⟩) : received (l ++ l') = received l := by
  induction l' generalizing l with
  | nil => rw [List.append_nil]
  | cons e l' ih =>
    rw [List.append_cons, ih fun e he => h e (List.mem_cons_of_mem _ he), received_last (h e (List.mem_cons_self ..))]

/-- After a step of a caller `kc.stopping` is set. -/
theorem stopping_caller {l : List CEv} {s s' : CSys} {i : Nat} (h : CSys.Run (CSys.new sv w) l s) (hs : CSys.Step s (.caller i) s') : s'.stopping = true := by
  have hc := (cinv h).stop i
  cases hs with
  | caller h =>
    simp only [CSys.callerStep] at h
    split at h
    all_goals first
      | (cases h; done)
      | (cases h; rfl)
      | (cases h; exact hc (by rw [‹s.callers i = _›]; nofun))

/-- **C86**: once `Close` has begun, nothing more is taken from the connection. -/
theorem C86_deaf_partial {l1 l2 : List CEv} {s : CSys} {i : Nat} (h : CSys.Run (CSys.new sv w) (l1 ++ .caller i :: l2) s) :
    received (ownOf (l1 ++ .caller i :: l2)) = received (ownOf l1) := by
  obtain ⟨s1, h1, h2⟩ := h.split
  cases h2 with
  | cons h2 h3 =>
    rw [ownOf_append]
    exact received_stays (stopping_run h3 (stopping_caller h1 h2)).2

/-- If all requests received have been taken up when `Close` begins, no more are. -/
theorem served_stays {l1 l2 : List CEv} {s : CSys} {i : Nat} (h : CSys.Run (CSys.new sv w) (l1 ++ .caller i :: l2) s)
    (hf : served (ownOf l1) = frames (received (ownOf l1))) : served (ownOf (l1 ++ .caller i :: l2)) = served (ownOf l1) := by
  obtain ⟨p, ho, _⟩ := (cinv h).own
  have := served_frames (handle_conv ho)
  rw [List.nil_append, C86_deaf_partial h, ← hf] at this
  rw [ownOf_append, served_append'] at this ⊢
  have hl := this.length_le
  rw [List.length_append] at hl
  rw [List.eq_nil_of_length_eq_zero (by omega : (served (ownOf (CEv.caller i :: l2))).length = 0), List.append_nil]

/-- What holds while no request is taken up: whoever has been woken finds no request in progress. -/
def Calm (s : CSys) : Prop := ∀ j, (s.callers j = .requests .woken → s.requests = 0) ∧ s.callers j ≠ .panicked

theorem calm_step {s s' : CSys} {e : CEv} (h : CSys.Step s e s') (hc : Calm s) (hb : ∀ m u, e ≠ .own ⟨.reqBegin m, u⟩) : Calm s' := by
  cases h with
  | @own a f r w hp' hr ha =>
    suffices hs : Calm (s.effect a) from hs
    cases a
    case reqBegin m => exact absurd rfl (hb m r)
    case reqEnd =>
      intro j
      have he : (s.effect .reqEnd).callers = if s.requests = 1 then fun i => CSys.wakeRequests (s.callers i) else s.callers := rfl
      have hq : (s.effect .reqEnd).requests = s.requests - 1 := rfl
      rw [he, hq]
      have := hc j
      split
      · next h1 =>
        refine ⟨fun _ => by omega, fun e => ?_⟩
        dsimp only at e
        cases hj : s.callers j with
        | requests k => rw [hj] at e; cases k <;> cases e
        | panicked => exact this.2 hj
        | _ => rw [hj] at e; cases e
      · exact ⟨fun hj => by have := this.1 hj; omega, this.2⟩
    all_goals exact hc
  | round => exact hc
  | ended =>
    intro j
    have := hc j
    dsimp only
    cases hj : s.callers j with
    | task k => cases k <;> exact ⟨nofun, nofun⟩
    | _ => rw [hj] at this; exact this
  | @caller _ i h =>
    intro j
    have hi := hc i
    have hj := hc j
    simp only [CSys.callerStep] at h
    split at h
    all_goals first
      | (cases h; done)
      | (cases h
         simp only [CSys.setCaller]
         split
         · first
             | (refine ⟨fun e => ?_, fun e => ?_⟩ <;> (cases e; done))
             | (rw [if_pos (hi.1 ‹_›)]; refine ⟨fun e => ?_, fun e => ?_⟩ <;> (cases e; done))
             | (split <;> refine ⟨fun e => ?_, fun e => ?_⟩ <;> (cases e; done))
         · exact hj)
  | env => exact hc

theorem calm_run {s s' : CSys} {l : List CEv} (h : CSys.Run s l s') (hc : Calm s) (hb : served (ownOf l) = []) : Calm s' := by
  induction h with
  | nil => exact hc
  | @cons s s1 s2 e es h _ ih =>
    have h0 : served (ownOf [e]) ++ served (ownOf es) = [] := by
      rw [← served_append', ← ownOf_append]; exact hb
    obtain ⟨h1, h2⟩ := List.append_eq_nil_iff.1 h0
    refine ih (calm_step h hc fun m u e' => ?_) h2
    subst e'
    cases h1

/-- **C86**: if all requests received have been taken up when `Close` is called, no more are taken up; `Close` does not panic; and when it closes the connection all
requests have been processed. -/
theorem C86_calm_partial {l1 l2 : List CEv} {s : CSys} {i : Nat} (h : CSys.Run (CSys.new sv w) (l1 ++ .caller i :: l2) s) (hl : ∀ j, .caller j ∉ l1)
    (hf : served (ownOf l1) = frames (received (ownOf l1))) :
    served (ownOf (l1 ++ .caller i :: l2)) = served (ownOf l1) ∧ (∀ j, s.callers j ≠ .panicked) ∧
    ∀ j, PastRequests s j → ended (ownOf (l1 ++ .caller i :: l2)) = (served (ownOf l1)).length := by
  have hs := served_stays h hf
  obtain ⟨s1, h1, h2⟩ := h.split
  have hall : ∀ j, s1.callers j = .store := fun j => caller_store h1 (hl j) rfl
  refine ⟨hs, fun j => (calm_run h2 (fun j => by rw [hall j]; exact ⟨nofun, nofun⟩) ?_ j).2, fun j hp => ?_⟩
  · rw [ownOf_append, served_append'] at hs
    exact List.append_cancel_left (hs.trans (List.append_nil _).symm)
  · have h3 := C86_finished_partial h (hl j) hp
    have h4 := (cinv h).count
    rw [hs] at h4
    omega

/-! ### Schedules -/

/-- A schedule entry: the client's goroutine takes a step (reading nothing, and writing while the connection is open), it reads the given bytes, a caller of `Close` takes a step,
or the server is told to finish. -/
inductive CPick where
  | own
  | data (b : Bytes)
  | caller (i : Nat)
  | finish

/-- The result of an action in a schedule. -/
def cresp (s : CSys) : (a : Act) → Option (a.Resp × World)
  | .isStopping => some (s.stopping, s.world)
  | .recv => some (if s.isOpen then .timeout else .closed, s.world)
  | .write _ => some (s.isOpen, s.world)
  | .isConnected => some (.noFile, s.world)
  | a => a.exec1 s.world

def cpick (s : CSys) : CPick → Option (CEv × CSys)
  | .own =>
    match s.prog with
    | some (.act a f) =>
      match cresp s a with
      | some (r, w) => some (.own ⟨a, r⟩, { s.effect a with prog := some (f r), world := w })
      | none => none
    | some (.loop x body f) => some (.round, { s with prog := some (Prog.unroll x body f) })
    | some (.ret ()) => some (.ended, { s with prog := none, callers := fun i => CSys.wakeTask (s.callers i) })
    | _ => none
  | .data b =>
    match s.prog with
    | some (.act .recv f) => if s.isOpen ∧ b ≠ [] ∧ b.length ≤ 8192 then some (.own ⟨.recv, .data b⟩, { s with prog := some (f (.data b)) }) else none
    | _ => none
  | .caller i =>
    match s.callerStep i with
    | some s' => some (.caller i, s')
    | none => none
  | .finish => some (.env, { s with world := { s.world with cancelled := true } })

def cplay : List CPick → CSys → List CEv × CSys
  | [], s => ([], s)
  | p :: ps, s =>
    match cpick s p with
    | some (e, s1) => (e :: (cplay ps s1).1, (cplay ps s1).2)
    | none => ([], s)

theorem cresp_sound {s : CSys} {a : Act} {r : a.Resp} {w : World} (h : cresp s a = some (r, w)) : s.Allows a r ∧ a.step s.world r w := by
  cases a
  case isStopping => cases h; exact ⟨rfl, rfl⟩
  case recv => cases h; exact ⟨fun e => by rw [e]; rfl, rfl, by cases s.isOpen <;> nofun⟩
  case write b => cases h; exact ⟨id, rfl⟩
  case isConnected => cases h; exact ⟨fun _ => rfl, rfl⟩
  all_goals exact ⟨trivial, Act.exec1_sound h⟩

theorem cpick_sound {s s' : CSys} {p : CPick} {e : CEv} (h : cpick s p = some (e, s')) : CSys.Step s e s' := by
  cases p with
  | own =>
    unfold cpick at h
    dsimp only at h
    split at h
    · next a f hp =>
      split at h
      · next r w hr => cases h; exact .own hp (cresp_sound hr).1 (cresp_sound hr).2
      · cases h
    · next hp => cases h; exact .round hp
    · next hp => cases h; exact .ended hp
    · cases h
  | data b =>
    unfold cpick at h
    dsimp only at h
    split at h
    · next f hp =>
      split at h
      · next hc =>
        cases h
        exact CSys.Step.own (w := s.world) hp (fun e => by rw [e] at hc; cases hc.1) ⟨rfl, fun b e => by cases e; exact hc.2⟩
      · cases h
    · cases h
  | caller i =>
    unfold cpick at h
    dsimp only at h
    split at h
    · next hs => cases h; exact .caller hs
    · cases h
  | finish => cases h; exact .env _

theorem cplay_run (ps : List CPick) (s : CSys) : CSys.Run s (cplay ps s).1 (cplay ps s).2 := by
  induction ps generalizing s with
  | nil => exact .nil _
  | cons p ps ih =>
    unfold cplay
    split
    · next h => exact .cons (cpick_sound h) (ih _)
    · exact .nil _

/-! ### Against the full statement -/

/-- A request for the versions served, with the given correlation id and no client id. -/
def versionsMessage (c : UInt8) : Bytes := [0, 18, 0, 0, 0, 0, 0, c, 255, 255]

def versionsFrame (c : UInt8) : Bytes := [0, 0, 0, 10] ++ versionsMessage c

def freshClient : CSys := CSys.new ⟨9092, []⟩ ⟨[], 0, false⟩

/-- The client reads two requests at once and begins with the first. -/
def twoAsked : List CPick := [.own, .own, .data (versionsFrame 1 ++ versionsFrame 2), .own, .own, .own]

/-- `Close` waits for it; the client ends it and begins with the second before the caller of `Close` is scheduled. -/
def closeWakes : List CPick := [.caller 0, .caller 0, .own, .own, .own, .own, .own, .own, .own, .caller 0]

/-- The client reads a request. -/
def oneAsked : List CPick := [.own, .own, .data (versionsFrame 1), .own]

/-- `Close` finds no request in progress and closes the connection; then the client begins with the request. Then all end. -/
def closeCuts : List CPick := [.caller 0, .caller 0, .caller 0] ++ List.replicate 10 .own ++ [.caller 0]

def CEv.isCaller : CEv → Bool
  | .caller _ => true
  | _ => false

theorem no_caller {l : List CEv} (h : l.all (fun e => !CEv.isCaller e) = true) (j : Nat) : .caller j ∉ l := fun hm => by
  have := List.all_eq_true.1 h _ hm
  cases this

set_option maxRecDepth 100000 in
/-- Against the full statement. `Close` ends the process: the client begins with a second request, received before `Close` was called, between the end of the first and the moment
when the caller of `Close`, who has waited for the first, looks again. And a request received before `Close` was called is processed but its answer is lost, because `Close` found
no request in progress and closed the connection before the client began with it; nothing else failed, and `Close` returns. -/
theorem C86_false :
    (∃ l1 l2 s, CSys.Run freshClient (l1 ++ l2) s ∧ (∀ j, .caller j ∉ l1) ∧ frames (received (ownOf l1)) = [versionsMessage 1, versionsMessage 2] ∧ served (ownOf l1) = [versionsMessage 1] ∧
      ended (ownOf (l1 ++ l2)) = 1 ∧ s.callers 0 = .panicked) ∧
    ∃ l1 l2 s, CSys.Run freshClient (l1 ++ l2) s ∧ (∀ j, .caller j ∉ l1) ∧ frames (received (ownOf l1)) = [versionsMessage 1] ∧ served (ownOf (l1 ++ l2)) = [versionsMessage 1] ∧
      sent (ownOf (l1 ++ l2)) = [] ∧ s.callers 0 = .returned := by
  constructor
  · refine ⟨_, _, _, (cplay_run twoAsked freshClient).append (cplay_run closeWakes _), no_caller ?_, ?_, ?_, ?_, ?_⟩ <;> decide +kernel
  · refine ⟨_, _, _, (cplay_run oneAsked freshClient).append (cplay_run closeCuts _), no_caller ?_, ?_, ?_, ?_, ?_⟩ <;> decide +kernel

/-- `Close` of a client that has begun with the one request it has read: the request is answered, and `Close` returns. -/
def closeWaits : List CPick := [.caller 0] ++ [.caller 0] ++ List.replicate 5 .own ++ [.caller 0, .caller 0, .caller 0] ++ List.replicate 4 .own ++ [.caller 0]

set_option maxRecDepth 100000 in
/-- The hypotheses of `C86_calm_partial` and of `C86_finished_partial` hold here, with a request in progress when `Close` is called. -/
example : ∃ l1 l2 s, CSys.Run freshClient (l1 ++ .caller 0 :: l2) s ∧ (∀ j, .caller j ∉ l1) ∧ served (ownOf l1) = frames (received (ownOf l1)) ∧ served (ownOf l1) = [versionsMessage 1] ∧
    ended (ownOf l1) = 0 ∧ s.callers 0 = .returned ∧ sent (ownOf (l1 ++ .caller 0 :: l2)) = [0, 0, 0, 10, 0, 0, 0, 1, 0, 0, 0, 0, 0, 0] := by
  refine ⟨_, _, _, (cplay_run (oneAsked ++ [.own, .own]) freshClient).append (cplay_run closeWaits _), no_caller ?_, ?_, ?_, ?_, ?_, ?_⟩ <;> decide +kernel

end KM.Props
