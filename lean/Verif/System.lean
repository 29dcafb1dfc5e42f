import Verif.Refine
import Verif.Props.Registry
/-
Connections of the whole mock: where they come from, and which context they and their accept loop have.
-/
namespace KM
open KM.Props

/-! ### Where connections come from -/

theorem Sys.Step.sv {s s' : Sys} {e : SEv} (h : Sys.Step s e s') : s'.sv = s.sv := by
  cases h with
  | life hn => exact (next_data hn).1
  | _ => rfl

theorem Sys.Run.sv {s s' : Sys} {tr : List SEv} (h : Sys.Run s tr s') : s'.sv = s.sv := by
  induction h with
  | nil => rfl
  | cons h _ ih => rw [ih, h.sv]

/-- A step that brings about a connection begins it. -/
theorem Sys.Step.begins {s s' : Sys} {e : SEv} (h : Sys.Step s e s') {c : Nat} (hc : s.conns[c]? = none) :
    s'.conns[c]? = none ∨ ∃ g n, s'.conns[c]? = some ⟨g, n, s.ctx.getD 0, .body (handle s.sv)⟩ := by
  have hle : s.conns.length ≤ c := List.getElem?_eq_none_iff.1 hc
  cases h.shape with
  | quiet h => left; rw [h]; exact hc
  | reset _ _ _ h => left; rw [h]; exact hc
  | loop _ _ _ _ _ _ _ h => left; rw [h]; exact hc
  | register g r _ _ _ h =>
    rw [h, List.getElem?_append_right hle]
    cases e : c - s.conns.length with
    | zero => exact .inr ⟨g, r.cxn + 1, rfl⟩
    | succ n => exact .inl rfl
  | conn _ _ _ _ _ _ h => left; rw [h, List.getElem?_eq_none_iff, List.length_set]; exact hle
  | delete _ _ _ _ _ _ h => left; rw [h, List.getElem?_eq_none_iff, List.length_set]; exact hle

theorem Sys.Step.no_acts {s s' : Sys} {e : SEv} (h : Sys.Step s e s') {c : Nat} (hc : s.conns[c]? = none) : actsOf c [e] = [] := by
  cases h with
  | @conn c' k a f r w hk _ _ =>
    by_cases ec : c' = c
    · subst ec; rw [hk] at hc; cases hc
    · simp [actsOf, ec]
  | _ => rfl

/-- Every connection was begun by some step of the run, with the handler's program. -/
theorem Sys.Run.born {s s' : Sys} {tr : List SEv} (h : Sys.Run s tr s') {c : Nat} {k : ConnG} (hc : s.conns[c]? = none) (hk : s'.conns[c]? = some k) :
    ∃ t0 t1 s1, tr = t0 ++ t1 ∧ Sys.Run s t0 s1 ∧ Sys.Run s1 t1 s' ∧ s1.conns[c]? = some ⟨k.gen, k.num, k.ctx, .body (handle s.sv)⟩ ∧ actsOf c t0 = [] := by
  induction h with
  | nil => rw [hc] at hk; cases hk
  | @cons s s1 s2 e es h hs ih =>
    rcases h.begins hc with h1 | ⟨g, n, h1⟩
    · obtain ⟨t0, t1, s3, h2, h3, h4, h5, h6⟩ := ih h1 hk
      refine ⟨e :: t0, t1, s3, by rw [h2]; rfl, .cons h h3, h4, by rw [← h.sv]; exact h5, ?_⟩
      rw [actsOf_cons, h.no_acts hc, h6]; rfl
    · obtain ⟨k', h2, h3, h4, h5, _⟩ := hs.project h1 rfl
      rw [hk] at h2; cases h2
      refine ⟨[e], es, s1, rfl, .cons h (.nil _), hs, ?_, h.no_acts hc⟩
      rw [h1, h3, h4, h5]

/-- Everything a connection of the mock does in a run is an execution of `handle` among an environment. -/
theorem Sys.Run.connection {sv : Server} {clock : Int} {s : Sys} {tr : List SEv} (h : Sys.Run (Sys.new sv clock) tr s) {c : Nat} {k : ConnG}
    (hk : s.conns[c]? = some k) :
    ∃ (w w' : World) (es : List Ev) (p : Prog Unit), Exec w (handle sv) es w' p ∧ own es = actsOf c tr ∧
      (k.pc = .body p ∨ ((∀ q, k.pc ≠ .body q) ∧ p = .ret ())) := by
  obtain ⟨t0, t1, s1, h1, _, h3, h4, h5⟩ := h.born (by simp [Sys.new]) hk
  obtain ⟨k', h6, _, _, _, h7⟩ := h3.project h4 rfl
  rw [hk] at h6; cases h6
  rcases h7 with ⟨p, es, h8, h9, h10, _⟩ | ⟨h8, es, w, h9, h10⟩
  · exact ⟨_, _, es, p, h9, by rw [h10, h1, actsOf_append, h5]; rfl, .inl h8⟩
  · exact ⟨_, _, es, _, h9, by rw [h10, h1, actsOf_append, h5]; rfl, .inr ⟨h8, rfl⟩⟩

/-- The same, cut at a moment of the run at which the connection exists. -/
theorem Sys.Run.connection_at {sv : Server} {clock : Int} {s1 s2 : Sys} {t1 t2 : List SEv} (h1 : Sys.Run (Sys.new sv clock) t1 s1)
    (h2 : Sys.Run s1 t2 s2) {c : Nat} {k1 : ConnG} {p1 : Prog Unit} (hk1 : s1.conns[c]? = some k1) (hp1 : k1.pc = .body p1) :
    ∃ (w w' : World) (e1 e2 : List Ev) (p2 : Prog Unit), Exec w (handle sv) e1 (s1.view k1.ctx) p1 ∧ Exec (s1.view k1.ctx) p1 e2 w' p2 ∧
      own e1 = actsOf c t1 ∧ own e2 = actsOf c t2 := by
  obtain ⟨ta, tb, sb, e, _, hb, h4, h5⟩ := h1.born (by simp [Sys.new]) hk1
  obtain ⟨k', h6, _, _, _, h7⟩ := hb.project h4 rfl
  rw [hk1] at h6; cases h6
  rcases h7 with ⟨p, es, h8, h9, h10, _⟩ | ⟨h8, _⟩
  · rw [hp1] at h8; cases h8
    obtain ⟨k2, _, _, _, _, h12⟩ := h2.project hk1 hp1
    have he : own es = actsOf c t1 := by rw [h10, e, actsOf_append, h5]; rfl
    rcases h12 with ⟨p2, es2, _, h13, h14, _⟩ | ⟨_, es2, w, h13, h14⟩
    · exact ⟨_, _, es, es2, p2, h9, h13, he, h14⟩
    · exact ⟨_, _, es, es2, _, h9, h13, he, h14⟩
  · exact absurd hp1 (h8 _)

/-! ### Contexts -/

/-- Which context goroutines have. -/
structure CtxInv (s : Sys) : Prop where
  /-- `km.l` is the context of the accept loop that runs -/
  run : ∀ (g : Nat) (r : RunG), s.runs[g]? = some r → r.pc.running = true → s.ctx = some g
  /-- or of the one about to be started -/
  start : ∀ i, derived (s.api i) = true → s.ctx = some s.runs.length
  /-- a connection has the context of its accept loop -/
  conn : ∀ (c : Nat) (k : ConnG), s.conns[c]? = some k → k.ctx = k.gen

/-- What a caller of exported functions does to `km.l`. -/
theorem apiStep_ctx {s s' : Sys} {i : Nat} {c : Call} (hn : s.apiStep i c = .ok s') :
    (s'.ctx = s.ctx ∧ s'.runs = s.runs ∧ ∀ j, derived (s'.api j) = true → derived (s.api j) = true) ∨
    (∃ r, s.api i = .start .derive r ∧ s'.ctx = some s.runs.length ∧ s'.runs = s.runs) ∨
    (∃ r, s.api i = .start .spawn r ∧ s'.ctx = s.ctx ∧ s'.runs = s.runs ++ [⟨.listen, 0⟩] ∧ ∀ j, derived (s'.api j) = true → j ≠ i ∧ derived (s.api j) = true) := by
  have mv : ∀ {pc : ApiPc} (s1 : Sys), s1.api = s.api → s1.ctx = s.ctx → s1.runs = s.runs → (derived pc = true → derived (s.api i) = true) →
      (s1.setApi i pc).ctx = s.ctx ∧ (s1.setApi i pc).runs = s.runs ∧ ∀ j, derived ((s1.setApi i pc).api j) = true → derived (s.api j) = true := by
    intro pc s1 h0 h1 h2 h3
    refine ⟨h1, h2, fun j hj => ?_⟩
    simp only [Sys.setApi] at hj
    by_cases e : j = i
    · subst e; rw [if_pos rfl] at hj; exact h3 hj
    · rw [if_neg e, h0] at hj; exact hj
  have wt : ∀ {n : Nat} {k : WaitPc} {at' : WaitPc → ApiPc} {b : ApiPc}, s.waitStep i n k at' b = .ok s' → derived (at' .asleep) = false → derived b = false →
      s'.ctx = s.ctx ∧ s'.runs = s.runs ∧ ∀ j, derived (s'.api j) = true → derived (s.api j) = true := by
    intro n k at' b hn h1 h2
    cases k <;> simp only [Sys.waitStep, reduceCtorEq, Out.ok.injEq] at hn <;> subst hn
    · refine mv s rfl rfl rfl ?_
      split
      · rw [h2]; intro h; cases h
      · rw [h1]; intro h; cases h
    · refine mv s rfl rfl rfl ?_
      split
      · rw [h2]; intro h; cases h
      · intro h; cases h
  unfold Sys.apiStep at hn
  split at hn
  · cases hn; exact .inl (mv s rfl rfl rfl (fun h => by cases c <;> cases h))
  · cases hn; exact .inl (mv s rfl rfl rfl (fun h => by cases h))
  · next k r hk =>
    cases k
    case derive => cases hn; exact .inr (.inl ⟨r, hk, rfl, rfl⟩)
    case spawn =>
      cases hn
      refine .inr (.inr ⟨r, hk, rfl, rfl, fun j hj => ?_⟩)
      simp only [Sys.setApi] at hj
      by_cases e : j = i
      · rw [if_pos e] at hj; cases hj
      · rw [if_neg e] at hj; exact ⟨e, hj⟩
    all_goals
      simp only [Sys.startStep, Sys.lockMu] at hn
      (try split at hn) <;> cases hn
      all_goals refine .inl (mv _ rfl rfl rfl (fun h => ?_))
      all_goals first
        | (cases h; done)
        | (rw [hk]; rfl)
        | (cases r <;> cases h)
  · next k b hk =>
    cases k
    case init k => simp only [Sys.stopStep] at hn; exact .inl (wt hn rfl rfl)
    all_goals
      simp only [Sys.stopStep, Sys.lockMu] at hn
      (try split at hn) <;> cases hn
      all_goals refine .inl (mv _ rfl rfl rfl (fun h => ?_))
      all_goals first
        | (cases h; done)
        | (split at h <;> first | (cases h; done) | (cases b <;> cases h))
        | (cases b <;> cases h)
  · next k r hk => exact .inl (wt hn rfl rfl)
  · next k hk => exact .inl (wt hn rfl rfl)
  · split at hn <;> cases hn <;> exact .inl (mv _ rfl rfl rfl (fun h => by cases h))
  · cases hn; exact .inl (mv s rfl rfl rfl (fun h => by cases h))
  · cases hn
  · cases hn

theorem LoopNext.running {pc pc' : RunPc} (h : LoopNext pc pc') (h' : pc'.running = true) : pc.running = true := by
  cases h <;> first | rfl | cases h'

/-- Connections keep their accept loop and context. -/
theorem shape_ctx {s s' : Sys} (h : Shape s s') (hi : CtxInv s) : ∀ (c : Nat) (k : ConnG), s'.conns[c]? = some k → k.ctx = k.gen := by
  intro c k hk
  cases h with
  | quiet h => rw [h] at hk; exact hi.conn c k hk
  | reset _ _ _ h => rw [h] at hk; exact hi.conn c k hk
  | loop _ _ _ _ _ _ _ h => rw [h] at hk; exact hi.conn c k hk
  | register g r hg hp _ h =>
    rw [h] at hk
    by_cases hlt : c < s.conns.length
    · rw [List.getElem?_append_left hlt] at hk; exact hi.conn c k hk
    · rw [List.getElem?_append_right (by omega)] at hk
      cases hcn : c - s.conns.length with
      | zero =>
        rw [hcn] at hk; cases hk
        show s.ctx.getD 0 = g
        rw [hi.run g r hg (by rw [hp]; rfl)]; rfl
      | succ n => rw [hcn] at hk; cases hk
  | conn _ _ _ h1 _ _ h =>
    rw [h] at hk
    obtain ⟨k0, h2, h3, _, h4⟩ := set_num h1 hk
    rw [← h3, ← h4]; exact hi.conn c k0 h2
  | delete _ _ _ h1 _ _ h =>
    rw [h] at hk
    obtain ⟨k0, h2, h3, _, h4⟩ := set_num h1 hk
    rw [← h3, ← h4]; exact hi.conn c k0 h2

theorem derived_starting {pc : ApiPc} (h : derived pc = true) : pc.starting = 1 ∧ pc.locked = true := by
  cases pc with
  | start k _ => cases k <;> first | exact ⟨rfl, rfl⟩ | cases h
  | _ => cases h

theorem step_ctxInv {s s' : Sys} {e : SEv} (h : Sys.Step s e s') (hi : s.Inv) (hc : CtxInv s) : CtxInv s' := by
  have hsh := shape_ctx h.shape hc
  have same : s'.ctx = s.ctx → s'.runs = s.runs → (∀ j, derived (s'.api j) = true → derived (s.api j) = true) → CtxInv s' := by
    intro h1 h2 h3
    exact ⟨by rw [h1, h2]; exact hc.run, by rw [h1, h2]; exact fun i hi => hc.start i (h3 i hi), hsh⟩
  cases h with
  | @life _ ch hn =>
    cases ch with
    | api i cl =>
      rcases apiStep_ctx hn with ⟨h1, h2, h3⟩ | ⟨r, h1, h2, h3⟩ | ⟨r, h1, h2, h3, h4⟩
      · exact same h1 h2 h3
      · refine ⟨?_, ?_, hsh⟩
        · intro g r hg hr
          rw [h3] at hg
          rw [starting_alone hi (i := i) (by rw [h1]; rfl) hg] at hr; cases hr
        · rw [h2, h3]; exact fun _ _ => rfl
      · have hlk : (s.api i).locked = true := by rw [h1]; rfl
        have hct := hc.start i (by rw [h1]; rfl)
        refine ⟨?_, ?_, hsh⟩
        · intro g x hg hx
          rw [h2, hct]
          rw [h3] at hg
          by_cases hlt : g < s.runs.length
          · rw [List.getElem?_append_left hlt] at hg
            rw [starting_alone hi (i := i) (by rw [h1]; rfl) hg] at hx; cases hx
          · rw [List.getElem?_append_right (by omega)] at hg
            cases hcn : g - s.runs.length with
            | zero => congr 1; omega
            | succ n => rw [hcn] at hg; cases hg
        · intro j hj
          exfalso
          obtain ⟨h5, h6⟩ := h4 j hj
          have m1 := (hi.mu (.api i)).1 hlk
          have m2 := (hi.mu (.api j)).1 (derived_starting h6).2
          rw [m1] at m2; cases m2
          exact h5 rfl
    | run g ok =>
      have f := runStep_frame hn
      obtain ⟨r, r', h1, _, h3⟩ := runStep_runs hn
      refine ⟨?_, ?_, hsh⟩
      · intro g' x hg' hx
        rw [f.ctx]
        cases Sys.Step.shape (.life hn) with
        | quiet _ _ hr =>
          rcases hr with hr | hr
          · rw [hr] at hg'; exact hc.run g' x hg' hx
          · exfalso
            have := congrArg List.length (h3.symm.trans hr)
            simp at this
        | reset _ _ _ _ _ hr => rw [hr] at hg'; exact hc.run g' x hg' hx
        | loop g1 r1 pc hg1 hnx _ hr =>
          rw [hr] at hg'
          by_cases e : g1 = g'
          · subst e
            rw [List.getElem?_set_self (List.getElem?_eq_some_iff.1 hg1).1] at hg'
            cases hg'
            exact hc.run g1 r1 hg1 (LoopNext.running hnx hx)
          · rw [List.getElem?_set_ne e] at hg'; exact hc.run g' x hg' hx
        | register g1 r1 hg1 hp hr =>
          rw [hr] at hg'
          by_cases e : g1 = g'
          · subst e; exact hc.run g1 r1 hg1 (by rw [hp]; rfl)
          · rw [List.getElem?_set_ne e] at hg'; exact hc.run g' x hg' hx
        | conn _ _ _ _ _ _ _ _ hr => rw [hr] at hg'; exact hc.run g' x hg' hx
        | delete _ _ _ _ _ _ _ _ hr => rw [hr] at hg'; exact hc.run g' x hg' hx
      · intro j hj
        rw [f.ctx, h3, List.length_set]
        exact hc.start j (by rw [← (f.api j).same.2.2]; exact hj)
    | conn c =>
      have f := connStep_frame hn
      exact same f.ctx (connStep_runs hn) (fun j hj => by rw [← (f.api j).same.2.2]; exact hj)
    | parentCancel => cases hn; exact same rfl rfl (fun _ h => h)
  | conn => exact same rfl rfl (fun _ h => h)
  | unroll => exact same rfl rfl (fun _ h => h)
  | @call i a f r w hp ha =>
    refine same rfl rfl (fun j hj => ?_)
    simp only [Sys.setApi] at hj
    by_cases e : j = i
    · subst e; rw [if_pos rfl] at hj; cases hj
    · rw [if_neg e] at hj; exact hj
  | tick => exact same rfl rfl (fun _ h => h)

theorem Sys.Run.whole {sv : Server} {clock : Int} {tr : List SEv} {s : Sys} (h : Sys.Run (Sys.new sv clock) tr s) : s.Inv ∧ Attended s ∧ CtxInv s := by
  have i0 := Sys.inv_new sv clock
  have a0 : Attended (Sys.new sv clock) := fun c k h => by simp [Sys.new] at h
  have c0 : CtxInv (Sys.new sv clock) := ⟨fun _ _ h => by simp [Sys.new] at h, fun _ h => (by cases h), fun _ _ h => by simp [Sys.new] at h⟩
  generalize Sys.new sv clock = s0 at h i0 a0 c0
  induction h with
  | nil => exact ⟨i0, a0, c0⟩
  | cons h _ ih => exact ih (h.inv i0) (step_attended h i0 a0) (step_ctxInv h i0 c0)

/-- Every connection that has not ended has the context `km.l` has. -/
theorem CtxInv.live {s : Sys} (hc : CtxInv s) (ha : Attended s) {c : Nat} {k : ConnG} (hk : s.conns[c]? = some k) (hl : live k.pc = true) :
    s.ctx = some k.ctx := by
  obtain ⟨r, h1, h2⟩ := ha c k hk (live_inActive hl)
  rw [hc.conn c k hk]
  exact hc.run k.gen r h1 (attends_running h2)

end KM
