import Verif.Fair
import Verif.Halts
import Verif.Props.System
/-
In an endless fair run: connections end once their context is cancelled, and an accept loop ends once its listener is closed and its
context cancelled.
-/
namespace KM
open Props

variable {sv : Server} {clock : Int} {ss : Nat → Sys} {es : Nat → SEv}

/-- A connection whose context is cancelled looks up records and finds them again and again, without end. -/
def Feeds (ss : Nat → Sys) (es : Nat → SEv) : Prop :=
  ∃ c n k p, (ss n).conns[c]? = some k ∧ k.pc = .body p ∧ (ss n).isDone k.ctx = true ∧
    ∀ n, ∃ m, n ≤ m ∧ ∃ t p o rec, es m = .conn c (.fetchRecord t p o) (some (some rec))

theorem Endless.done (h : Endless sv clock ss es F) {n m g : Nat} (hnm : n ≤ m) (hd : (ss n).isDone g = true) : (ss m).isDone g = true := by
  obtain ⟨_, hr⟩ := h.run hnm
  exact run_done hr hd

theorem Endless.closed (h : Endless sv clock ss es F) {n m g : Nat} (hnm : n ≤ m) (hd : g ∈ (ss n).closes) : g ∈ (ss m).closes := by
  induction hnm with
  | refl => exact hd
  | @step m _ ih =>
    rcases step_listener (h.step m) with ⟨_, e⟩ | ⟨_, e⟩ | ⟨g', _, _, e⟩ | ⟨_, _, _, _, _, _, _, _, e⟩ <;> rw [e]
    · exact ih
    · exact ih
    · exact List.mem_cons_of_mem _ ih
    · exact ih

/-- What is left of a handler's loop ends once its context is cancelled. -/
theorem Endless.stoppable (h : Endless sv clock ss es F) (n : Nat) {c : Nat} {k : ConnG} {p : Prog Unit} (hc : (ss n).conns[c]? = some k) (hp : k.pc = .body p) :
    p.Stoppable doneResp := by
  induction n generalizing c k p with
  | zero => rw [h.first] at hc; simp [Sys.new] at hc
  | succ n ih =>
    cases hk : (ss n).conns[c]? with
    | none =>
      rcases (h.step n).begins hk with e | ⟨g, x, e⟩
      · rw [e] at hc; cases hc
      · rw [e] at hc; cases hc; cases hp; exact handle_stoppable _
    | some k0 =>
      by_cases he : (es n).of = some (.conn c)
      · obtain ⟨k1, h1, h2⟩ := step_conn_self (h.step n) he
        rw [hk] at h1; cases h1
        cases h2 with
        | act hp' _ _ hk' => rw [hk'] at hc; cases hc; cases hp; exact (ih hk hp').2 _
        | loop hp' hk' => rw [hk'] at hc; cases hc; cases hp; exact (ih hk hp').unroll
        | ret hp' hk' => rw [hk'] at hc; cases hc; cases hp
        | @oc o hp' hk' => rw [hk'] at hc; cases hc; cases o <;> cases hp
      · have := step_conn_other (h.step n) hk he
        rw [hc] at this; cases this
        exact ih hk hp

theorem Endless.conn_ended (h : Endless sv clock ss es F) {n m c : Nat} {k : ConnG} (hnm : n ≤ m) (hc : (ss n).conns[c]? = some k) (hp : k.pc = .ended) :
    (ss m).conns[c]? = some k := by
  induction hnm with
  | refl => exact hc
  | @step m _ ih =>
    refine step_conn_other (h.step m) ih fun he => ?_
    obtain ⟨k0, h1, h2⟩ := step_conn_self (h.step m) he
    rw [ih] at h1; cases h1
    cases h2 with
    | act hp' => rw [hp] at hp'; cases hp'
    | loop hp' => rw [hp] at hp'; cases hp'
    | ret hp' => rw [hp] at hp'; cases hp'
    | oc hp' => rw [hp] at hp'; cases hp'

def OcPc.rank : OcPc → Nat
  | .lock => 4
  | .delete => 3
  | .active => 2
  | .wg => 1
  | .unlock => 0

/-- The close callback of a connection returns. -/
theorem Endless.oc_ends (h : Endless sv clock ss es) {n c : Nat} {k : ConnG} {o : OcPc} (hc : (ss n).conns[c]? = some k) (hp : k.pc = .oc o) :
    ∃ m, n ≤ m ∧ (ss m).conns[c]? = some { k with pc := .ended } := by
  generalize hr : o.rank = x
  induction x using Nat.strongRecOn generalizing n k o with
  | ind x ih =>
    obtain ⟨m, m1, m2, m3⟩ := h.first_act (.conn c) n fun hno m hm => by
      obtain ⟨m', h1, h2⟩ := h.mu_free m
      refine ⟨m', h1, k, h.conn_stays (by omega) hc fun j h1 _ => hno j h1, ?_⟩
      rw [hp]
      cases o <;> first | exact h2 | trivial
    have e := h.conn_stays m1 hc m3
    obtain ⟨k0, a1, a2⟩ := step_conn_self (h.step m) m2
    rw [e] at a1; cases a1
    cases a2 with
    | act hp' => rw [hp] at hp'; cases hp'
    | loop hp' => rw [hp] at hp'; cases hp'
    | ret hp' => rw [hp] at hp'; cases hp'
    | oc hp' hk =>
      rw [hp] at hp'; cases hp'
      cases o <;> cases hr
      all_goals first
        | exact ⟨m + 1, by omega, hk⟩
        | (obtain ⟨m', b1, b2⟩ := ih _ (by decide) hk rfl rfl; exact ⟨m', by omega, b2⟩)

/-- A connection whose context is cancelled ends, unless its Fetch finds records again and again. -/
theorem Endless.conn_ends (h : Endless sv clock ss es) (hf : ¬ Feeds ss es) {n c : Nat} {k : ConnG} (hc : (ss n).conns[c]? = some k)
    (hd : ∀ p, k.pc = .body p → (ss n).isDone k.ctx = true) : ∃ m, n ≤ m ∧ (ss m).conns[c]? = some { k with pc := .ended } := by
  have after : ∀ {n : Nat} {k : ConnG}, (ss n).conns[c]? = some k → (∀ p, k.pc ≠ .body p) → ∃ m, n ≤ m ∧ (ss m).conns[c]? = some { k with pc := .ended } := by
    intro n k hc hb
    cases hp : k.pc with
    | body p => exact absurd hp (hb p)
    | oc o => exact h.oc_ends hc hp
    | ended => exact ⟨n, Nat.le_refl _, by rw [← hp]; exact hc⟩
  by_cases hb : ∀ p, k.pc ≠ .body p
  · exact after hc hb
  obtain ⟨p0, hp0⟩ : ∃ p, k.pc = .body p := Classical.byContradiction fun hno => hb fun p hp => hno ⟨p, hp⟩
  have ex : ∃ N, ∀ m, N ≤ m → ∀ t p o rec, es m ≠ .conn c (.fetchRecord t p o) (some (some rec)) :=
    Classical.byContradiction fun hno => hf ⟨c, n, k, p0, hc, hp0, hd _ hp0, fun n =>
      Classical.byContradiction fun hn => hno ⟨n, fun m hm t p o rec he => hn ⟨m, hm, t, p, o, rec, he⟩⟩⟩
  obtain ⟨N, hN⟩ := ex
  have key : ∀ (p : Prog Unit), p.Halts doneResp → ∀ (n : Nat) (k : ConnG), N ≤ n → (ss n).conns[c]? = some k → k.pc = .body p → (ss n).isDone k.ctx = true →
      ∃ m, n ≤ m ∧ (ss m).conns[c]? = some { k with pc := .ended } := by
    have one : ∀ {p : Prog Unit} {n : Nat} {k : ConnG}, (ss n).conns[c]? = some k → k.pc = .body p →
        ∃ m, n ≤ m ∧ (ss m).conns[c]? = some k ∧ ConnStep (ss m) (ss (m + 1)) c k (es m) := by
      intro p n k hc hp
      obtain ⟨m, m1, m2, m3⟩ := h.first_act (.conn c) n fun hno m hm => ⟨m, Nat.le_refl _, k, h.conn_stays hm hc fun j h1 _ => hno j h1, by rw [hp]; trivial⟩
      have e := h.conn_stays m1 hc m3
      obtain ⟨k0, a1, a2⟩ := step_conn_self (h.step m) m2
      rw [e] at a1; cases a1
      exact ⟨m, m1, e, a2⟩
    have gen : ∀ {α : Type} (p : Prog α), p.Halts doneResp → ∀ (hα : α = Unit) (n : Nat) (k : ConnG), N ≤ n → (ss n).conns[c]? = some k →
        k.pc = .body (hα ▸ p) → (ss n).isDone k.ctx = true → ∃ m, n ≤ m ∧ (ss m).conns[c]? = some { k with pc := .ended } := by
      intro α p hp
      induction hp with
      | ret v =>
        intro hα n k hn hc hp hd
        subst hα
        obtain ⟨m, m1, _, m3⟩ := one hc hp
        cases m3 with
        | act hp' => rw [hp] at hp'; cases hp'
        | loop hp' => rw [hp] at hp'; cases hp'
        | ret hp' hk =>
          obtain ⟨m', a, b⟩ := after hk (fun p h => by cases h)
          exact ⟨m', by omega, b⟩
        | oc hp' => rw [hp] at hp'; cases hp'
      | panic =>
        intro hα n k hn hc hp hd
        subst hα
        obtain ⟨m, m1, _, m3⟩ := one hc hp
        cases m3 with
        | act hp' => rw [hp] at hp'; cases hp'
        | loop hp' => rw [hp] at hp'; cases hp'
        | ret hp' => rw [hp] at hp'; cases hp'
        | oc hp' => rw [hp] at hp'; cases hp'
      | @act a f hh ih =>
        intro hα n k hn hc hp hd
        subst hα
        obtain ⟨m, m1, _, m3⟩ := one hc hp
        cases m3 with
        | @act a' f' r w hp' he ha hk =>
          rw [hp] at hp'; cases hp'
          have hok : doneResp a r := by
            have hdm := h.done m1 hd
            cases a <;> try trivial
            · intro rec hr; subst hr; exact hN m (by omega) _ _ _ _ he
            · obtain ⟨_, hr⟩ := ha; exact hr.trans hdm
          obtain ⟨m', a, b⟩ := ih r hok rfl (m + 1) _ (by omega) hk rfl (h.done (by omega) hd)
          exact ⟨m', by omega, b⟩
        | loop hp' => rw [hp] at hp'; cases hp'
        | ret hp' => rw [hp] at hp'; cases hp'
        | oc hp' => rw [hp] at hp'; cases hp'
      | @loop σ β s body f hh ih =>
        intro hα n k hn hc hp hd
        subst hα
        obtain ⟨m, m1, _, m3⟩ := one hc hp
        cases m3 with
        | act hp' => rw [hp] at hp'; cases hp'
        | loop hp' hk =>
          rw [hp] at hp'; cases hp'
          obtain ⟨m', a, b⟩ := ih rfl (m + 1) _ (by omega) hk rfl (h.done (by omega) hd)
          exact ⟨m', by omega, b⟩
        | ret hp' => rw [hp] at hp'; cases hp'
        | oc hp' => rw [hp] at hp'; cases hp'
    intro p hp n k
    exact gen p hp rfl n k
  -- go on to a time after `N`
  have keep : ∀ m, n ≤ m → ∃ k', (ss m).conns[c]? = some k' ∧ k' = { k with pc := k'.pc } ∧ (∀ p, k'.pc = .body p → (ss m).isDone k'.ctx = true) := by
    intro m hm
    induction hm with
    | refl => exact ⟨k, hc, rfl, hd⟩
    | @step m hm ih =>
      obtain ⟨k', h1, h2, h3⟩ := ih
      by_cases he : (es m).of = some (.conn c)
      · obtain ⟨k0, a1, a2⟩ := step_conn_self (h.step m) he
        rw [h1] at a1; cases a1
        cases a2 with
        | act hp _ _ hk => exact ⟨_, hk, by rw [h2], fun _ _ => h.done (Nat.le_succ _) (h3 _ hp)⟩
        | loop hp hk => exact ⟨_, hk, by rw [h2], fun _ _ => h.done (Nat.le_succ _) (h3 _ hp)⟩
        | ret hp hk => exact ⟨_, hk, by rw [h2], fun p h => by cases h⟩
        | @oc o hp hk => exact ⟨_, hk, by rw [h2], fun p h => by cases o <;> cases h⟩
      · exact ⟨k', step_conn_other (h.step m) h1 he, h2, fun p hp => h.done (Nat.le_succ _) (h3 p hp)⟩
  obtain ⟨k', h1, h2, h3⟩ := keep (max n N) (Nat.le_max_left ..)
  have hk : ({ k' with pc := .ended } : ConnG) = { k with pc := .ended } := by rw [h2]
  have hm1 := Nat.le_max_left n N
  have hm2 := Nat.le_max_right n N
  rw [← hk]
  cases hp : k'.pc with
  | body p =>
    obtain ⟨m, a, b⟩ := key p (h.stoppable _ h1 hp).halts _ _ hm2 h1 hp (h3 _ hp)
    exact ⟨m, by omega, b⟩
  | oc o =>
    obtain ⟨m, a, b⟩ := after h1 (fun p e => by rw [hp] at e; cases e)
    exact ⟨m, by omega, b⟩
  | ended =>
    obtain ⟨m, a, b⟩ := after h1 (fun p e => by rw [hp] at e; cases e)
    exact ⟨m, by omega, b⟩

/-- An accept loop that waits for its connections is answered, once its context is cancelled. -/
theorem Endless.active_zero (h : Endless sv clock ss es) (hf : ¬ Feeds ss es) {n g : Nat} {r : RunG} (hg : (ss n).runs[g]? = some r) (hp : r.pc = .waitActive)
    (hd : (ss n).isDone g = true) (hno : ∀ m, n ≤ m → (es m).of ≠ some (.run g)) : ∃ M, n ≤ M ∧ ∀ m, M ≤ m → (ss m).active = 0 := by
  have stays : ∀ m, n ≤ m → (ss m).runs[g]? = some r := fun m hm => h.run_stays hm hg fun j h1 _ => hno j h1
  have len : ∀ m, n ≤ m → (ss m).conns.length = (ss n).conns.length := by
    intro m hm
    induction hm with
    | refl => rfl
    | @step m hm ih =>
      rw [← ih]
      cases (h.step m).shape with
      | quiet e => rw [e]
      | reset _ _ _ e => rw [e]
      | loop _ _ _ _ _ _ _ e => rw [e]
      | register g' r' hg' hp' _ _ _ =>
        exfalso
        have := running_unique (h.whole m).1 (stays m hm) hg' (by rw [hp]; rfl) (by rw [hp']; rfl)
        subst this
        rw [stays m hm] at hg'; cases hg'
        rw [hp] at hp'; cases hp'
      | conn _ _ _ _ _ _ e => rw [e, List.length_set]
      | delete _ _ _ _ _ _ e => rw [e, List.length_set]
  have all : ∀ L, L ≤ (ss n).conns.length → ∃ M, n ≤ M ∧ ∀ c, c < L → ∃ k, (ss M).conns[c]? = some k ∧ k.pc = .ended := by
    intro L
    induction L with
    | zero => intro _; exact ⟨n, Nat.le_refl _, fun c h => absurd h (Nat.not_lt_zero _)⟩
    | succ L ih =>
      intro hL
      obtain ⟨M, h1, h2⟩ := ih (by omega)
      obtain ⟨k, hk⟩ : ∃ k, (ss M).conns[L]? = some k := ⟨_, List.getElem?_eq_getElem (by rw [len M h1]; omega)⟩
      obtain ⟨M', h3, h4⟩ := h.conn_ends hf hk fun p hp' => by
        have hctx := (h.whole M).2.2.live (h.whole M).2.1 hk (by rw [hp']; rfl)
        have hctx' := (h.whole M).2.2.run g r (stays M h1) (by rw [hp]; rfl)
        rw [hctx] at hctx'; cases hctx'
        exact h.done h1 hd
      refine ⟨M', by omega, fun c hc => ?_⟩
      rcases Nat.lt_or_ge c L with hc' | hc'
      · obtain ⟨k', a, b⟩ := h2 c hc'
        exact ⟨k', h.conn_ended h3 a b, b⟩
      · have : c = L := by omega
        subst this
        exact ⟨_, h4, rfl⟩
  obtain ⟨M, h1, h2⟩ := all _ (Nat.le_refl _)
  refine ⟨M, h1, fun m hm => ?_⟩
  have := (h.whole m).1.active
  have hz : (ss m).conns.countP (·.pc.inActive) = 0 := by
    rw [List.countP_eq_zero]
    intro k hk
    obtain ⟨c, hc⟩ := List.getElem?_of_mem hk
    have hlt := (List.getElem?_eq_some_iff.1 hc).1
    rw [len m (by omega)] at hlt
    obtain ⟨k', a, b⟩ := h2 c hlt
    have := h.conn_ended hm a b
    rw [hc] at this; cases this
    rw [b]; decide
  omega

/-- An accept loop ends once its listener is closed and its context cancelled. -/
theorem Endless.run_ends (h : Endless sv clock ss es) (hf : ¬ Feeds ss es) {n g : Nat} {r : RunG} (hg : (ss n).runs[g]? = some r) (hc : g ∈ (ss n).closes)
    (hd : (ss n).isDone g = true) : ∃ m r', n ≤ m ∧ (ss m).runs[g]? = some r' ∧ r'.pc = .ended := by
  generalize hx : r.pc.rank = x
  induction x using Nat.strongRecOn generalizing n r with
  | ind x ih =>
    by_cases he : r.pc = .ended
    · exact ⟨n, r, Nat.le_refl _, hg, he⟩
    obtain ⟨m, m1, m2, m3⟩ := h.first_act (.run g) n fun hno m hm => by
      have stays : ∀ m, n ≤ m → (ss m).runs[g]? = some r := fun m hm => h.run_stays hm hg fun j h1 _ => hno j h1
      by_cases hw : r.pc = .waitActive
      · obtain ⟨M, h1, h2⟩ := h.active_zero hf hg hw hd hno
        refine ⟨max m M, Nat.le_max_left .., r, stays _ (by omega), ?_⟩
        rw [hw]; exact h2 _ (Nat.le_max_right ..)
      · obtain ⟨m', h1, h2⟩ := h.mu_free m
        refine ⟨m', h1, r, stays m' (by omega), ?_⟩
        have := h.closed (show n ≤ m' by omega) hc
        cases hp : r.pc <;> first | exact absurd hp he | exact absurd hp hw | exact h2 | exact this | trivial
    have e := h.run_stays m1 hg m3
    obtain ⟨r0, r', a1, _, a3, a4⟩ := step_run_self (h.step m) m2
    rw [e] at a1; cases a1
    have := a4 (h.closed m1 hc)
    obtain ⟨m', r2, b1, b2, b3⟩ := ih _ (by omega) a3 (h.closed (by omega) hc) (h.done (by omega) hd) rfl
    exact ⟨m', r2, by omega, b2, b3⟩

end KM
