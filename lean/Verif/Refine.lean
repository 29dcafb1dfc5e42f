import Verif.LifeShape
import Verif.Reach
/-
From the whole mock to one connection: in every run of the mock, what a connection does is an execution of its program in the sense of
`Exec`, where everything the other goroutines do is the environment. So whatever is proved of every interleaving of one program holds of
the connections of the whole mock.
-/
namespace KM

/-- The actions of connection `c` in a run of the mock. -/
def actsOf (c : Nat) (tr : List SEv) : List REv := tr.filterMap fun e =>
  match e with
  | .conn c' a r => if c' = c then some ⟨a, r⟩ else none
  | _ => none

/-- The effects on the store of a run of the mock. -/
def effectsOf (tr : List SEv) : List Eff := tr.filterMap fun e =>
  match e with
  | .conn _ a _ => a.effect
  | .call _ a _ => a.effect
  | _ => none

theorem effectsOf_cons (e : SEv) (es : List SEv) : effectsOf (e :: es) = effectsOf [e] ++ effectsOf es := by
  unfold effectsOf
  rw [← List.filterMap_append]
  rfl

theorem effectsOf_append (a b : List SEv) : effectsOf (a ++ b) = effectsOf a ++ effectsOf b := List.filterMap_append ..

theorem actsOf_append (c : Nat) (a b : List SEv) : actsOf c (a ++ b) = actsOf c a ++ actsOf c b := List.filterMap_append ..

theorem actsOf_cons (c : Nat) (e : SEv) (es : List SEv) : actsOf c (e :: es) = actsOf c [e] ++ actsOf c es := by
  unfold actsOf
  rw [← List.filterMap_append]
  rfl

/-- Only `isDone` and `cancel` have to do with the context. -/
theorem step_flag {a : Act} {w w' : World} {r : a.Resp} (h : a.step w r w') (h1 : a ≠ .isDone) (h2 : a ≠ .cancel) (b : Bool) :
    a.step { w with cancelled := b } r { w' with cancelled := b } ∧ w'.cancelled = w.cancelled := by
  cases a <;> simp only [Act.step, World.withDs] at h ⊢
  case isDone => exact absurd rfl h1
  case cancel => exact absurd rfl h2
  case groupCommitted => obtain ⟨kp, h3, h4, rfl⟩ := h; exact ⟨⟨kp, h3, h4, rfl⟩, rfl⟩
  case partInfo => obtain ⟨kp, h3, h4, rfl⟩ := h; exact ⟨⟨kp, h3, h4, rfl⟩, rfl⟩
  case numRecords => obtain ⟨kp, h3, h4, rfl⟩ := h; exact ⟨⟨kp, h3, h4, rfl⟩, rfl⟩
  case recordAt => obtain ⟨kp, h3, rfl, h4⟩ := h; exact ⟨⟨kp, h3, rfl, h4⟩, rfl⟩
  case fetchRecord => obtain ⟨kp, h3, rfl, h4⟩ := h; exact ⟨⟨kp, h3, rfl, h4⟩, rfl⟩
  case sleep => obtain ⟨c, h3, rfl⟩ := h; exact ⟨⟨c, h3, rfl⟩, rfl⟩
  all_goals first
    | (subst h; exact ⟨rfl, rfl⟩)
    | (obtain ⟨rfl, h3⟩ := h; exact ⟨⟨rfl, h3⟩, rfl⟩)
    | (obtain ⟨h3, rfl⟩ := h; exact ⟨⟨h3, rfl⟩, rfl⟩)
    | (obtain ⟨h3, rfl, h4⟩ := h; exact ⟨⟨h3, rfl, h4⟩, rfl⟩)

theorem isDone_setView {s : Sys} {w : World} {x ctx : Nat} (hw : w.cancelled = s.isDone x) : (s.setView x w).isDone ctx = s.isDone ctx := by
  unfold Sys.setView Sys.isDone at *
  dsimp only
  rw [hw]
  split
  · next h =>
    rw [List.contains_cons]
    by_cases e : ctx = x
    · subst e
      simp only [beq_self_eq_true, Bool.true_or, Bool.or_true]
      exact h.symm
    · rw [show (ctx == x) = false from by simpa using e, Bool.false_or]
  · rfl

/-- What the environment of a connection with context `ctx` does in a step of somebody else. -/
theorem env_step {s s' : Sys} {e : SEv} (h : Sys.Step s e s') (ctx : Nat) :
    ∃ es, EnvSteps (s.view ctx) es (s'.view ctx) ∧ effects es = effectsOf [e] := by
  have flag : ∀ {s' : Sys} {x : SEv}, s'.ds = s.ds → s'.clock = s.clock → (s.isDone ctx = true → s'.isDone ctx = true) → effectsOf [x] = [] →
      ∃ es, EnvSteps (s.view ctx) es (s'.view ctx) ∧ effects es = effectsOf [x] := by
    intro s' x e1 e2 e3 e4
    rw [e4]
    unfold Sys.view
    rw [e1, e2]
    cases h1 : s.isDone ctx with
    | true => rw [e3 h1]; exact ⟨[], .nil _, rfl⟩
    | false =>
      cases h2 : s'.isDone ctx with
      | false => exact ⟨[], .nil _, rfl⟩
      | true => exact ⟨[⟨false, .cancel, ()⟩], .cons (a := .cancel) (r := ()) rfl (.nil _), rfl⟩
  cases h with
  | @life _ c hn =>
    obtain ⟨_, h1, h2, h3⟩ := next_data hn
    exact flag h1 h2 (h3 ctx) rfl
  | @conn c k a f r w hc hp ha =>
    show ∃ es, EnvSteps (s.view ctx) es ⟨w.ds, w.clock, (s.setView k.ctx w).isDone ctx⟩ ∧ _
    by_cases h1 : a = .isDone
    · subst h1
      obtain ⟨rfl, _⟩ := ha
      rw [isDone_setView rfl]
      exact ⟨[], .nil _, rfl⟩
    by_cases h2 : a = .cancel
    · subst h2
      cases ha
      exact flag (s' := s.setView k.ctx { s.view k.ctx with cancelled := true }) (x := .conn c .cancel r) rfl rfl (by
        unfold Sys.setView Sys.isDone
        simp only [if_true, List.contains_cons]
        cases s.parentDone <;> simp +contextual) rfl
    obtain ⟨h3, h4⟩ := step_flag ha h1 h2 (s.isDone ctx)
    rw [isDone_setView h4]
    refine ⟨[⟨false, a, r⟩], .cons (a := a) (r := r) h3 (.nil _), ?_⟩
    simp only [effects, effectsOf, List.filterMap_cons, List.filterMap_nil]
  | unroll => exact flag rfl rfl id rfl
  | @call i a f r w hp ha =>
    show ∃ es, EnvSteps (s.view ctx) es ⟨w.ds, w.clock, s.isDone ctx⟩ ∧ _
    by_cases h1 : a = .isDone
    · subst h1
      obtain ⟨rfl, _⟩ := ha
      exact ⟨[], .nil _, rfl⟩
    by_cases h2 : a = .cancel
    · subst h2
      cases ha
      exact ⟨[], .nil _, rfl⟩
    obtain ⟨h3, h4⟩ := step_flag ha h1 h2 (s.isDone ctx)
    refine ⟨[⟨false, a, r⟩], .cons (a := a) (r := r) h3 (.nil _), ?_⟩
    simp only [effects, effectsOf, List.filterMap_cons, List.filterMap_nil]
  | tick d => exact ⟨[⟨false, .tick d, ()⟩], .cons (a := .tick d) (r := ()) rfl (.nil _), rfl⟩

theorem apiStep_conns {s s' : Sys} {i : Nat} {c : Call} (hn : s.apiStep i c = .ok s') : s'.conns = s.conns := by
  unfold Sys.apiStep at hn
  split at hn
  · cases hn; rfl
  · cases hn; rfl
  · next k r hk =>
    clear hk
    cases k <;> simp only [Sys.startStep, Sys.lockMu] at hn <;> (try split at hn) <;> cases hn <;> rfl
  · next k b hk =>
    clear hk
    cases k
    case init k => cases k <;> simp only [Sys.stopStep, Sys.waitStep, reduceCtorEq, Out.ok.injEq] at hn <;> subst hn <;> rfl
    all_goals
      simp only [Sys.stopStep, Sys.lockMu] at hn
      (try split at hn) <;> cases hn <;> rfl
  · next k r hk => clear hk; cases k <;> simp only [Sys.waitStep, reduceCtorEq, Out.ok.injEq] at hn <;> subst hn <;> rfl
  · next k hk => clear hk; cases k <;> simp only [Sys.waitStep, reduceCtorEq, Out.ok.injEq] at hn <;> subst hn <;> rfl
  · split at hn <;> cases hn <;> rfl
  · cases hn; rfl
  · cases hn
  · cases hn

theorem runStep_conns {s s' : Sys} {g : Nat} {ok : Bool} (hn : s.runStep g ok = .ok s') :
    s'.conns = s.conns ∨ ∃ r, s.runs[g]? = some r ∧ r.pc = .register ∧ s'.conns = s.conns ++ [⟨g, r.cxn + 1, s.ctx.getD 0, .body (handle s.sv)⟩] := by
  unfold Sys.runStep at hn
  split at hn
  · cases hn
  next r hr =>
  cases hp : r.pc <;> simp only [hp] at hn
  case initDone =>
    cases he : s.initDone <;> rw [he] at hn <;> cases hn
    exact .inl (initDone_same he).1
  case wgDone =>
    cases he : s.wgDone <;> rw [he] at hn <;> cases hn
    exact .inl (wgDone_same he).1
  case lock => unfold Sys.lockMu at hn; split at hn <;> cases hn; exact .inl rfl
  case accept =>
    split at hn
    · cases hn; exact .inl rfl
    · split at hn <;> cases hn; exact .inl rfl
  case ended => cases hn
  case register => cases hn; exact .inr ⟨r, hr, hp, rfl⟩
  all_goals first
    | (cases hn; exact .inl rfl)
    | (split at hn <;> cases hn; exact .inl rfl)

theorem connStep_conns {s s' : Sys} {c : Nat} (hn : s.connStep c = .ok s') :
    ∃ k k', s.conns[c]? = some k ∧ s'.conns = s.conns.set c k' ∧
      ((k.pc = .body (.ret ()) ∧ k' = { k with pc := .oc .lock }) ∨ ∃ o, k.pc = .oc o) := by
  unfold Sys.connStep at hn
  split at hn
  · cases hn
  next k hk =>
  split at hn
  · next hp => cases hn; exact ⟨k, _, hk, rfl, .inl ⟨hp, rfl⟩⟩
  · cases hn
  · cases hn
  · next hp => unfold Sys.lockMu at hn; split at hn <;> cases hn; exact ⟨k, _, hk, rfl, .inr ⟨_, hp⟩⟩
  · next hp => split at hn <;> cases hn; exact ⟨k, _, hk, rfl, .inr ⟨_, hp⟩⟩
  · next hp =>
    cases he : s.activeDone <;> rw [he] at hn <;> cases hn
    exact ⟨k, _, hk, by show List.set _ _ _ = _; rw [(activeDone_same he).1], .inr ⟨_, hp⟩⟩
  · next hp =>
    cases he : s.wgDone <;> rw [he] at hn <;> cases hn
    exact ⟨k, _, hk, by show List.set _ _ _ = _; rw [(wgDone_same he).1], .inr ⟨_, hp⟩⟩
  · next hp => cases hn; exact ⟨k, _, hk, rfl, .inr ⟨_, hp⟩⟩
  · cases hn

/-- A step outside the handlers' loops leaves a connection in its loop where it is, unless it is that connection leaving its loop. -/
theorem next_conns {s s' : Sys} {ch : Sys.Choice} (hn : s.next ch = .ok s') {c : Nat} {k : ConnG} {p : Prog Unit} (hk : s.conns[c]? = some k)
    (hp : k.pc = .body p) : s'.conns[c]? = some k ∨ (p = .ret () ∧ s'.conns[c]? = some { k with pc := .oc .lock }) := by
  have hlt := (List.getElem?_eq_some_iff.1 hk).1
  cases ch with
  | api i c => left; rw [apiStep_conns hn]; exact hk
  | run g ok =>
    left
    rcases runStep_conns hn with e | ⟨r, _, _, e⟩
    · rw [e]; exact hk
    · rw [e, List.getElem?_append_left hlt]; exact hk
  | conn c' =>
    obtain ⟨k1, k2, h1, h2, h3⟩ := connStep_conns hn
    by_cases e : c' = c
    · subst e
      rw [hk] at h1; cases h1
      rcases h3 with ⟨h4, rfl⟩ | ⟨o, h4⟩
      · right
        rw [hp] at h4; cases h4
        exact ⟨rfl, by rw [h2, List.getElem?_set_self hlt]⟩
      · rw [hp] at h4; cases h4
    · left; rw [h2, List.getElem?_set_ne e]; exact hk
  | parentCancel => left; cases hn; exact hk

/-- One step of the mock, seen from a connection in its loop. -/
theorem step_project {s s' : Sys} {e : SEv} (h : Sys.Step s e s') {c : Nat} {k : ConnG} {p : Prog Unit} (hk : s.conns[c]? = some k) (hp : k.pc = .body p) :
    (∃ p' es, s'.conns[c]? = some { k with pc := .body p' } ∧ Exec (s.view k.ctx) p es (s'.view k.ctx) p' ∧ own es = actsOf c [e] ∧ effects es = effectsOf [e]) ∨
    (p = .ret () ∧ s'.conns[c]? = some { k with pc := .oc .lock }) := by
  have hlt := (List.getElem?_eq_some_iff.1 hk).1
  have hke : k = { k with pc := .body p } := by rw [← hp]
  have env : s'.conns[c]? = some k → actsOf c [e] = [] → ∃ p' es, s'.conns[c]? = some { k with pc := .body p' } ∧
      Exec (s.view k.ctx) p es (s'.view k.ctx) p' ∧ own es = actsOf c [e] ∧ effects es = effectsOf [e] := by
    intro h1 h2
    obtain ⟨es, h3, h4⟩ := env_step h k.ctx
    exact ⟨p, es, hke ▸ h1, h3.exec p, by rw [h2]; exact own_of_env h3.2, h4⟩
  cases h with
  | @life _ ch hn =>
    rcases next_conns hn hk hp with h1 | h1
    · exact .inl (env h1 rfl)
    · exact .inr h1
  | @conn c' k' a f r w hc hp' ha =>
    by_cases ec : c' = c
    · subst ec
      rw [hk] at hc; cases hc
      rw [hp] at hp'; cases hp'
      refine .inl ⟨f r, [⟨true, a, r⟩], ?_, ?_, ?_, ?_⟩
      · show (s.conns.set c' _)[c']? = _
        rw [List.getElem?_set_self hlt]
      · refine .mine a f r (w1 := w) ha ?_
        show Exec w (f r) [] ⟨w.ds, w.clock, (s.setView k.ctx w).isDone k.ctx⟩ (f r)
        have : (s.setView k.ctx w).isDone k.ctx = w.cancelled := by
          by_cases h2 : a = .cancel
          · subst h2
            cases ha
            simp [Sys.setView, Sys.isDone]
          · by_cases h1 : a = .isDone
            · subst h1
              obtain ⟨rfl, _⟩ := ha
              rw [isDone_setView rfl]; rfl
            · have := (step_flag ha h1 h2 true).2
              rw [isDone_setView this, this]; rfl
        rw [this]
        exact .refl _ _
      · simp [actsOf, own]
      · simp [effects, effectsOf, List.filterMap_cons]
    · refine .inl (env ?_ (by simp [actsOf, ec]))
      show (s.conns.set c' _)[c]? = _
      rw [List.getElem?_set_ne ec]; exact hk
  | @unroll c' k' _ _ _ _ _ hc hp' =>
    by_cases ec : c' = c
    · subst ec
      rw [hk] at hc; cases hc
      rw [hp] at hp'; cases hp'
      refine .inl ⟨_, [], ?_, .unroll (.refl _ _), rfl, rfl⟩
      show (s.conns.set c' _)[c']? = _
      rw [List.getElem?_set_self hlt]
    · refine .inl (env ?_ rfl)
      show (s.conns.set c' _)[c]? = _
      rw [List.getElem?_set_ne ec]; exact hk
  | call => exact .inl (env hk rfl)
  | tick => exact .inl (env hk rfl)

/-- A connection that has left its loop does not return to it. -/
theorem step_left {s s' : Sys} {e : SEv} (h : Sys.Step s e s') {c : Nat} {k : ConnG} (hk : s.conns[c]? = some k) (hp : ∀ p, k.pc ≠ .body p) :
    actsOf c [e] = [] ∧ ∃ k', s'.conns[c]? = some k' ∧ k'.gen = k.gen ∧ k'.num = k.num ∧ k'.ctx = k.ctx ∧ ∀ p, k'.pc ≠ .body p := by
  have hlt := (List.getElem?_eq_some_iff.1 hk).1
  constructor
  · cases h with
    | @conn c' k' a f r w hc hp' ha =>
      by_cases ec : c' = c
      · subst ec; rw [hk] at hc; cases hc; exact absurd hp' (hp _)
      · simp [actsOf, ec]
    | _ => rfl
  · have set : ∀ {c' : Nat} {k1 : ConnG} {pc : ConnPc}, s.conns[c']? = some k1 → ConnNext k1.pc pc → s'.conns = s.conns.set c' { k1 with pc := pc } →
        ∃ k', s'.conns[c]? = some k' ∧ k'.gen = k.gen ∧ k'.num = k.num ∧ k'.ctx = k.ctx ∧ ∀ p, k'.pc ≠ .body p := by
      intro c' k1 pc h1 h2 h3
      rw [h3]
      by_cases ec : c' = c
      · subst ec
        rw [hk] at h1; cases h1
        refine ⟨_, List.getElem?_set_self hlt, rfl, rfl, rfl, fun p hpc => ?_⟩
        subst hpc
        generalize k.pc = x at h2 hp
        cases h2
        exact hp _ rfl
      · exact ⟨k, by rw [List.getElem?_set_ne ec]; exact hk, rfl, rfl, rfl, hp⟩
    cases h.shape with
    | quiet hc => exact ⟨k, by rw [hc]; exact hk, rfl, rfl, rfl, hp⟩
    | reset _ _ _ hc => exact ⟨k, by rw [hc]; exact hk, rfl, rfl, rfl, hp⟩
    | loop _ _ _ _ _ _ _ hc => exact ⟨k, by rw [hc]; exact hk, rfl, rfl, rfl, hp⟩
    | register _ _ _ _ _ hc => exact ⟨k, by rw [hc, List.getElem?_append_left hlt]; exact hk, rfl, rfl, rfl, hp⟩
    | conn c' k1 pc h1 h2 _ h3 => exact set h1 h2 h3
    | delete c' k1 r h1 h2 _ h3 => exact set h1 (h2 ▸ .delete) h3

/-- **Refinement.** In a run of the mock, a connection that is in its loop executes its program, interleaved with an environment:
its actions are those of the run, and the environment accounts for all other effects on the store. -/
theorem Sys.Run.project {s s' : Sys} {tr : List SEv} (h : Sys.Run s tr s') {c : Nat} {k : ConnG} {p : Prog Unit} (hk : s.conns[c]? = some k) (hp : k.pc = .body p) :
    ∃ k', s'.conns[c]? = some k' ∧ k'.gen = k.gen ∧ k'.num = k.num ∧ k'.ctx = k.ctx ∧
      ((∃ p' es, k'.pc = .body p' ∧ Exec (s.view k.ctx) p es (s'.view k.ctx) p' ∧ own es = actsOf c tr ∧ effects es = effectsOf tr) ∨
       ((∀ p', k'.pc ≠ .body p') ∧ ∃ es w, Exec (s.view k.ctx) p es w (.ret ()) ∧ own es = actsOf c tr)) := by
  induction h generalizing k p with
  | nil => exact ⟨k, hk, rfl, rfl, rfl, .inl ⟨p, [], hp, .refl _ _, rfl, rfl⟩⟩
  | @cons s s1 s2 e es h hs ih =>
    rcases step_project h hk hp with ⟨p', e1, h1, h2, h3, h4⟩ | ⟨rfl, h1⟩
    · obtain ⟨k', h5, h6, h7, h8, h9⟩ := ih h1 rfl
      refine ⟨k', h5, h6, h7, h8, ?_⟩
      rcases h9 with ⟨p2, e2, h9, h10, h11, h12⟩ | ⟨h9, e2, w, h10, h11⟩
      · refine .inl ⟨p2, e1 ++ e2, h9, h2.trans h10, ?_, ?_⟩
        · rw [actsOf_cons, ← h3, ← h11]; simp [own]
        · rw [effectsOf_cons, ← h4, ← h12, effects_append]
      · refine .inr ⟨h9, e1 ++ e2, w, h2.trans h10, ?_⟩
        rw [actsOf_cons, ← h3, ← h11]; simp [own]
    · have hno : actsOf c [e] = [] := by
        cases h with
        | @conn c' k' a f r w hc hp' ha =>
          by_cases ec : c' = c
          · subst ec; rw [hk] at hc; cases hc; rw [hp] at hp'; cases hp'
          · simp [actsOf, ec]
        | _ => rfl
      have key : ∀ {s1 s2 : Sys} {es : List SEv}, Sys.Run s1 es s2 → ∀ {k1 : ConnG}, s1.conns[c]? = some k1 → (∀ p, k1.pc ≠ .body p) →
          actsOf c es = [] ∧ ∃ k', s2.conns[c]? = some k' ∧ k'.gen = k1.gen ∧ k'.num = k1.num ∧ k'.ctx = k1.ctx ∧ ∀ p, k'.pc ≠ .body p := by
        intro s1 s2 es hr
        induction hr with
        | nil => intro k1 h1 h2; exact ⟨rfl, k1, h1, rfl, rfl, rfl, h2⟩
        | cons h _ ih =>
          intro k1 h1 h2
          obtain ⟨a1, k2, a2, a3, a4, a5, a6⟩ := step_left h h1 h2
          obtain ⟨b1, k3, b2, b3, b4, b5, b6⟩ := ih a2 a6
          exact ⟨by rw [actsOf_cons, a1, b1]; rfl, k3, b2, b3.trans a3, b4.trans a4, b5.trans a5, b6⟩
      obtain ⟨b1, k3, b2, b3, b4, b5, b6⟩ := key hs h1 (fun p hp => by cases hp)
      exact ⟨k3, b2, b3, b4, b5, .inr ⟨b6, [], _, .refl _ _, by rw [actsOf_cons, hno, b1]; rfl⟩⟩

/-- The data seen by any goroutine in any run of the mock come about by actions whose effects are those of the run. -/
theorem Sys.Run.steps {s s' : Sys} {tr : List SEv} (h : Sys.Run s tr s') (ctx : Nat) : ∃ es, Steps (s.view ctx) es (s'.view ctx) ∧ effects es = effectsOf tr := by
  induction h with
  | nil => exact ⟨[], .nil _, rfl⟩
  | cons h _ ih =>
    obtain ⟨e1, h1, h2⟩ := env_step h ctx
    obtain ⟨e2, h3, h4⟩ := ih
    exact ⟨e1 ++ e2, h1.1.append h3, by rw [effects_append, h2, h4, ← effectsOf_cons]⟩

end KM
