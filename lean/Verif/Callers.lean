import Verif.System
import Verif.LifeSim
import Verif.TestApi
import Verif.Safe
/-
From the whole mock to one call of SimplePost, ExtendedPost, CreatePartitionTopics or SetConsumerGroupOffset: in every run of the mock, what
the calling goroutine does during the call is an execution of the program of that function.
-/
namespace KM

/-- The actions of caller `i` in a run of the mock. -/
def callsOf (i : Nat) (tr : List SEv) : List REv := tr.filterMap fun e =>
  match e with
  | .call j a r => if j = i then some ⟨a, r⟩ else none
  | _ => none

theorem callsOf_append (i : Nat) (a b : List SEv) : callsOf i (a ++ b) = callsOf i a ++ callsOf i b := List.filterMap_append ..

theorem callsOf_cons (i : Nat) (e : SEv) (es : List SEv) : callsOf i (e :: es) = callsOf i [e] ++ callsOf i es := callsOf_append i [e] es

/-- The posting functions do not touch the context. -/
def NoCancel (a : Act) : Prop := a ≠ .cancel

theorem Call.noCancel {c : Call} {p : Prog Unit} (h : c.entry = .call p) : p.Only NoCancel := by
  cases c <;> cases h
  · exact ⟨nofun, fun _ => ⟨nofun, fun _ => ⟨nofun, fun _ => ⟨nofun, fun _ => trivial⟩⟩⟩⟩
  · exact ⟨nofun, fun _ => ⟨nofun, fun _ => ⟨nofun, fun _ => ⟨nofun, fun _ => trivial⟩⟩⟩⟩
  · next part ts =>
    induction ts with
    | nil => trivial
    | cons t ts ih => exact ⟨nofun, fun _ => ⟨nofun, fun _ => ih⟩⟩
  · refine ⟨nofun, fun kt => ?_⟩
    dsimp only
    split
    · refine ⟨nofun, fun kp => ?_⟩
      dsimp only
      split
      · exact ⟨nofun, fun _ => trivial⟩
      · trivial
    · trivial

theorem Woken.call {pc : ApiPc} {p : Prog Unit} {pc' : ApiPc} (h : Woken pc pc') : pc' = .call p ↔ pc = .call p := by
  cases h with
  | not => rfl
  | wg => unfold ApiPc.wakeWg; split <;> simp
  | init => unfold ApiPc.wakeInit; split <;> simp

/-- A step of a caller leaves other callers where they are. -/
theorem apiStep_other {s s' : Sys} {i : Nat} {c : Call} (hn : s.apiStep i c = .ok s') {j : Nat} (hj : j ≠ i) : s'.api j = s.api j := by
  have hset : ∀ (s : Sys) pc, (s.setApi i pc).api j = s.api j := fun s pc => by simp [Sys.setApi, hj]
  unfold Sys.apiStep at hn
  split at hn
  · cases hn; exact hset _ _
  · cases hn; exact hset _ _
  · next k r hk =>
    clear hk
    cases k <;> simp only [Sys.startStep, Sys.lockMu] at hn <;> (try split at hn) <;> cases hn <;> exact hset _ _
  · next k b hk =>
    clear hk
    cases k
    case init k => cases k <;> simp only [Sys.stopStep, Sys.waitStep, reduceCtorEq, Out.ok.injEq] at hn <;> subst hn <;> exact hset _ _
    all_goals
      simp only [Sys.stopStep, Sys.lockMu] at hn
      (try split at hn) <;> cases hn <;> exact hset _ _
  · next k r hk => clear hk; cases k <;> simp only [Sys.waitStep, reduceCtorEq, Out.ok.injEq] at hn <;> subst hn <;> exact hset _ _
  · next k hk => clear hk; cases k <;> simp only [Sys.waitStep, reduceCtorEq, Out.ok.injEq] at hn <;> subst hn <;> exact hset _ _
  · split at hn <;> cases hn <;> exact hset _ _
  · cases hn; exact hset _ _
  · cases hn
  · cases hn

/-- A caller gets into a posting function only by calling it. -/
theorem apiStep_self {s s' : Sys} {i : Nat} {c : Call} (hn : s.apiStep i c = .ok s') :
    (s.api i = .idle ∧ s'.api i = c.entry) ∨ (s.api i ≠ .idle ∧ ∀ p, s'.api i ≠ .call p) := by
  have hset : ∀ (s : Sys) pc, (s.setApi i pc).api i = pc := fun s pc => by simp [Sys.setApi]
  have hb : ∀ (b : StopBy) (p : Prog Unit), b.next ≠ .call p := fun b p => by cases b <;> simp [StopBy.next]
  unfold Sys.apiStep at hn
  split at hn
  · next h => cases hn; exact .inl ⟨h, hset _ _⟩
  all_goals right; refine ⟨by simp [*], fun p => ?_⟩
  · cases hn; rw [hset]; nofun
  · next k r hk =>
    clear hk
    cases k <;> simp only [Sys.startStep, Sys.lockMu] at hn <;> (try split at hn) <;> cases hn <;> rw [hset] <;> nofun
  · next k b hk =>
    clear hk
    cases k
    case init k => cases k <;> simp only [Sys.stopStep, Sys.waitStep, reduceCtorEq, Out.ok.injEq] at hn <;> subst hn <;> rw [hset] <;> split <;> nofun
    all_goals
      simp only [Sys.stopStep, Sys.lockMu] at hn
      (try split at hn) <;> cases hn <;> rw [hset] <;> first | exact hb _ _ | nofun
  · next k r hk => clear hk; cases k <;> simp only [Sys.waitStep, reduceCtorEq, Out.ok.injEq] at hn <;> subst hn <;> rw [hset] <;> split <;> nofun
  · next k hk => clear hk; cases k <;> simp only [Sys.waitStep, reduceCtorEq, Out.ok.injEq] at hn <;> subst hn <;> rw [hset] <;> split <;> nofun
  · split at hn <;> cases hn <;> rw [hset] <;> nofun
  · cases hn; rw [hset]; nofun
  · cases hn
  · cases hn

/-- A step outside the posting functions leaves a caller in one where it is, unless it is that caller returning from it. -/
theorem next_call {s s' : Sys} {ch : Sys.Choice} (hn : s.next ch = .ok s') {i : Nat} {p : Prog Unit} (hp : s.api i = .call p) :
    s'.api i = .call p ∨ (p = .ret () ∧ s'.api i = .idle) := by
  cases ch with
  | api j c =>
    by_cases e : i = j
    · subst e
      right
      have hn : s.apiStep i c = .ok s' := hn
      unfold Sys.apiStep at hn
      rw [hp] at hn
      cases p with
      | ret v => cases hn; exact ⟨rfl, by simp [Sys.setApi]⟩
      | panic => cases hn
      | act => cases hn
      | loop => cases hn
    · left; rw [apiStep_other hn e]; exact hp
  | run g ok => left; exact ((runStep_frame hn).api i).call.2 hp
  | conn c => left; exact ((connStep_frame hn).api i).call.2 hp
  | parentCancel => left; cases hn; exact hp

/-- A caller is in a posting function only if it was already, or has just called it. -/
theorem next_call_back {s s' : Sys} {ch : Sys.Choice} (hn : s.next ch = .ok s') {i : Nat} {p : Prog Unit} (hp : s'.api i = .call p) :
    s.api i = .call p ∨ ∃ c, ch = .api i c ∧ s.api i = .idle ∧ c.entry = .call p := by
  cases ch with
  | api j c =>
    by_cases e : i = j
    · subst e
      rcases apiStep_self hn with ⟨h1, h2⟩ | ⟨_, h2⟩
      · right; exact ⟨c, rfl, h1, by rw [← h2]; exact hp⟩
      · exact absurd hp (h2 p)
    · left; rw [← apiStep_other hn e]; exact hp
  | run g ok => left; exact ((runStep_frame hn).api i).call.1 hp
  | conn c => left; exact ((connStep_frame hn).api i).call.1 hp
  | parentCancel => left; cases hn; exact hp

/-- One step of the mock, seen from a caller in a posting function. -/
theorem step_call {s s' : Sys} {e : SEv} (h : Sys.Step s e s') {i : Nat} {p : Prog Unit} (hp : s.api i = .call p) (ho : p.Only NoCancel) :
    (∃ p' es, s'.api i = .call p' ∧ Exec (s.view 0) p es (s'.view 0) p' ∧ own es = callsOf i [e] ∧ effects es = effectsOf [e]) ∨
    (p = .ret () ∧ s'.api i = .idle ∧ callsOf i [e] = []) := by
  have env : s'.api i = .call p → callsOf i [e] = [] → ∃ p' es, s'.api i = .call p' ∧ Exec (s.view 0) p es (s'.view 0) p' ∧
      own es = callsOf i [e] ∧ effects es = effectsOf [e] := by
    intro h1 h2
    obtain ⟨es, h3, h4⟩ := env_step h 0
    exact ⟨p, es, h1, h3.exec p, by rw [h2]; exact own_of_env h3.2, h4⟩
  cases h with
  | @life _ ch hn =>
    rcases next_call hn hp with h1 | ⟨h1, h2⟩
    · exact .inl (env h1 rfl)
    · exact .inr ⟨h1, h2, rfl⟩
  | @conn c' k' a f r w hc hp' ha => exact .inl (env hp rfl)
  | unroll => exact .inl (env hp rfl)
  | tick => exact .inl (env hp rfl)
  | @call j a f r w hp' ha =>
    by_cases e : j = i
    · subst e
      rw [hp] at hp'; cases hp'
      refine .inl ⟨f r, [⟨true, a, r⟩], by simp [Sys.setApi], ?_, by simp [callsOf, own], by simp [effects, effectsOf, List.filterMap_cons]⟩
      refine .mine a f r (w1 := w) ha ?_
      show Exec w (f r) [] ⟨w.ds, w.clock, s.isDone 0⟩ (f r)
      have : w.cancelled = s.isDone 0 := by
        by_cases h1 : a = .isDone
        · subst h1; obtain ⟨rfl, _⟩ := ha; rfl
        · exact (step_flag ha h1 ho.1 true).2
      rw [← this]
      exact .refl _ _
    · refine .inl (env ?_ (by simp [callsOf, e]))
      have e' : i ≠ j := fun h => e h.symm
      simp only [Sys.setApi, if_neg e']
      exact hp

/-- A call in a run of the mock, from where it is to the end of the run, or until it returns. -/
theorem Sys.Run.call {s s' : Sys} {tr : List SEv} (h : Sys.Run s tr s') {i : Nat} {p : Prog Unit} (hp : s.api i = .call p) (ho : p.Only NoCancel) :
    (∃ p' es, s'.api i = .call p' ∧ Exec (s.view 0) p es (s'.view 0) p' ∧ own es = callsOf i tr ∧ effects es = effectsOf tr) ∨
    (∃ t1 t2 s1 e s2 es, tr = t1 ++ e :: t2 ∧ Sys.Run s t1 s1 ∧ s1.api i = .call (.ret ()) ∧ Sys.Step s1 e s2 ∧ s2.api i = .idle ∧ Sys.Run s2 t2 s' ∧
      Exec (s.view 0) p es (s1.view 0) (.ret ()) ∧ own es = callsOf i t1 ∧ effects es = effectsOf t1) := by
  induction h generalizing p with
  | nil s => exact .inl ⟨p, [], hp, .refl _ _, rfl, rfl⟩
  | @cons s s1 s2 e es h hs ih =>
    rcases step_call h hp ho with ⟨p', e1, h1, h2, h3, h4⟩ | ⟨rfl, h1, h2⟩
    · rcases ih h1 (h2.only ho).1 with ⟨p2, e2, h5, h6, h7, h8⟩ | ⟨t1, t2, sa, x, sb, e2, h5, h6, h7, h8, h9, h10, h11, h12, h13⟩
      · exact .inl ⟨p2, e1 ++ e2, h5, h2.trans h6, by rw [own_append, h3, h7, ← callsOf_cons], by rw [effects_append, h4, h8, ← effectsOf_cons]⟩
      · refine .inr ⟨e :: t1, t2, sa, x, sb, e1 ++ e2, by rw [h5]; rfl, .cons h h6, h7, h8, h9, h10, h2.trans h11, ?_, ?_⟩
        · rw [own_append, h3, h12, ← callsOf_cons]
        · rw [effects_append, h4, h13, ← effectsOf_cons]
    · exact .inr ⟨[], es, s, e, s1, [], rfl, .nil _, hp, h, h1, hs, .refl _ _, rfl, rfl⟩

/-- A caller that is in a posting function was there one step earlier, or has just called it. -/
theorem step_call_back {s s' : Sys} {e : SEv} (h : Sys.Step s e s') {i : Nat} {p : Prog Unit} (hp : s'.api i = .call p) :
    (∃ q, s.api i = .call q) ∨ ∃ c, e = .life (.api i c) ∧ s.api i = .idle ∧ c.entry = .call p := by
  cases h with
  | @life _ ch hn =>
    rcases next_call_back hn hp with h1 | ⟨c, rfl, h1, h2⟩
    · exact .inl ⟨_, h1⟩
    · exact .inr ⟨c, rfl, h1, h2⟩
  | @conn c' k' a f r w hc hp' ha => exact .inl ⟨_, hp⟩
  | unroll => exact .inl ⟨_, hp⟩
  | tick => exact .inl ⟨_, hp⟩
  | @call j a f r w hp' ha =>
    by_cases e : i = j
    · subst e; exact .inl ⟨_, hp'⟩
    · left
      simp only [Sys.setApi, if_neg e] at hp
      exact ⟨_, hp⟩

/-- Every caller that is in a posting function called it at some moment of the run, and what it has done since is an execution of the
program of that function. -/
theorem Sys.Run.called {sv : Server} {clock : Int} {s : Sys} {tr : List SEv} (h : Sys.Run (Sys.new sv clock) tr s) {i : Nat} {p : Prog Unit}
    (hp : s.api i = .call p) :
    ∃ (t0 t1 : List SEv) (s0 s1 : Sys) (c : Call) (q : Prog Unit) (es : List Ev), tr = t0 ++ .life (.api i c) :: t1 ∧
      Sys.Run (Sys.new sv clock) t0 s0 ∧ Sys.Step s0 (.life (.api i c)) s1 ∧ Sys.Run s1 t1 s ∧ s0.api i = .idle ∧ c.entry = .call q ∧ s1.api i = .call q ∧
      Exec (s1.view 0) q es (s.view 0) p ∧ own es = callsOf i t1 ∧ effects es = effectsOf t1 := by
  have key : ∀ {s s' : Sys} {tr : List SEv}, Sys.Run s tr s' → ∀ {p}, s'.api i = .call p → (∀ q, s.api i ≠ .call q) →
      ∃ (t0 t1 : List SEv) (s0 s1 : Sys) (c : Call) (q : Prog Unit) (es : List Ev), tr = t0 ++ .life (.api i c) :: t1 ∧
      Sys.Run s t0 s0 ∧ Sys.Step s0 (.life (.api i c)) s1 ∧ Sys.Run s1 t1 s' ∧ s0.api i = .idle ∧ c.entry = .call q ∧ s1.api i = .call q ∧
      Exec (s1.view 0) q es (s'.view 0) p ∧ own es = callsOf i t1 ∧ effects es = effectsOf t1 := by
    intro s s' tr h
    generalize hn : tr.length = n
    induction n using Nat.strongRecOn generalizing s s' tr with
    | _ n ihn =>
    intro p hp hq
    cases h with
    | nil => exact absurd hp (hq p)
    | @cons _ s1 _ e es h hs =>
      by_cases h1 : ∃ q, s1.api i = .call q
      · obtain ⟨q, h1⟩ := h1
        rcases step_call_back h h1 with ⟨q', h2⟩ | ⟨c, rfl, h2, h3⟩
        · exact absurd h2 (hq q')
        · rcases hs.call h1 (Call.noCancel h3) with ⟨p', e2, h5, h6, h7, h8⟩ | ⟨t1, t2, sa, x, sb, e2, h5, h6, h7, h8, h9, h10, h11, h12, h13⟩
          · rw [hp] at h5; cases h5
            exact ⟨[], es, s, s1, c, q, e2, rfl, .nil _, h, hs, h2, h3, h1, h6, h7, h8⟩
          · obtain ⟨u0, u1, v0, v1, c', q', es', g1, g2, g3, g4⟩ := ihn t2.length (by subst hn; rw [h5]; simp; omega) h10 rfl hp
              (fun q hq => by rw [h9] at hq; cases hq)
            refine ⟨.life (.api i c) :: (t1 ++ x :: u0), u1, v0, v1, c', q', es', by rw [h5, g1]; simp, ?_, g3, g4⟩
            exact .cons h (h6.append (.cons h8 g2))
      · obtain ⟨u0, u1, v0, v1, c', q', es', g1, g2, g3, g4⟩ := ihn es.length (by subst hn; simp) hs rfl hp (fun q hq => h1 ⟨q, hq⟩)
        exact ⟨e :: u0, u1, v0, v1, c', q', es', by rw [g1]; rfl, .cons h g2, g3, g4⟩
  exact key h hp (fun q hq => by simp [Sys.new] at hq)

end KM
