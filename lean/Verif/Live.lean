import Verif.Apart
/-
Start, RequestStop, WaitForTermination and Restart return, in fair runs in which Start is not called while another goroutine is in one of them.
-/
namespace KM
open Props

variable {sv : Server} {clock : Int} {ss : Nat → Sys} {es : Nat → SEv}

/-- An endless fair run in which, while a goroutine is in Start, also as part of Restart, no other is in Start, RequestStop, WaitForTermination or Restart. -/
structure Orderly (sv : Server) (clock : Int) (ss : Nat → Sys) (es : Nat → SEv) (F : Goroutine → Prop := fun _ => True) : Prop extends Endless sv clock ss es F where
  apart : ∀ n, Apart (ss n)

/-- An accept loop ends only after its listener was closed. -/
def Leaving (s : Sys) : Prop := ∀ (g : Nat) (r : RunG), s.runs[g]? = some r → (r.pc = .waitActive ∨ r.pc = .storeStarted ∨ r.pc.running = false) → g ∈ s.closes

theorem step_leaving {s s' : Sys} {e : SEv} (h : Sys.Step s e s') (hl : Leaving s) : Leaving s' := by
  intro g r' hg hp
  rcases step_run_back h hg with hb | ⟨r, hb, hn⟩ | ⟨_, rfl⟩
  · exact step_closed h (hl g r' hb hp)
  · by_cases ha : r.pc = .accept
    · by_cases he : e.of = some (.run g)
      · obtain ⟨ok, hs⟩ := step_by_run h he
        simp only [Sys.runStep, hb, ha] at hs
        split at hs
        · next hc => exact step_closed h (List.contains_iff_mem.1 hc)
        · split at hs <;> cases hs
          have : (s.setRun g { r with pc := .select }).runs[g]? = some { r with pc := .select } := List.getElem?_set_self (List.getElem?_eq_some_iff.1 hb).1
          rw [this] at hg; cases hg
          rcases hp with hp | hp | hp <;> cases hp
      · have := step_run_other h hb he
        rw [hg] at this; cases this
        rw [ha] at hp
        rcases hp with hp | hp | hp <;> cases hp
    · refine step_closed h (hl g r hb ?_)
      cases hq : r.pc <;> rw [hq] at hn ha <;> simp only [RunPc.next, List.mem_cons, List.not_mem_nil, or_false] at hn <;>
        first
        | exact absurd rfl ha
        | exact .inl rfl
        | exact .inr (.inl rfl)
        | exact .inr (.inr rfl)
        | (rw [hn] at hp; rcases hp with hp | hp | hp <;> cases hp)
        | (rcases hn with hn | hn <;> rw [hn] at hp <;> rcases hp with hp | hp | hp <;> cases hp)
  · rcases hp with hp | hp | hp <;> cases hp

structure LifeInv (s : Sys) : Prop where
  inv : s.Inv
  attended : Attended s
  ctx : CtxInv s
  apart : ApartInv s
  opened : Opened s
  asleep : Asleep s
  leaving : Leaving s

theorem Orderly.inv (h : Orderly sv clock ss es F) (n : Nat) : LifeInv (ss n) := by
  have main : ApartInv (ss n) ∧ Opened (ss n) ∧ Asleep (ss n) ∧ Leaving (ss n) := by
    induction n with
    | zero =>
      rw [h.first]
      exact ⟨apartInv_new _ _, fun g r h => by simp [Sys.new] at h, fun j => ⟨fun h => (by cases h), fun h => (by cases h)⟩, fun g r h => by simp [Sys.new] at h⟩
    | succ n ih =>
      obtain ⟨i1, i2, i3, i4⟩ := ih
      obtain ⟨tr, hr⟩ := h.reach n
      exact ⟨step_apartInv (h.step n) (h.whole n).1 (h.whole n).2.2 i2 (reachable_listenerInv ⟨_, _, _, hr⟩) (h.apart n) (h.apart (n + 1)) i1,
        step_opened (h.step n) (h.whole n).1 i2, step_asleep (h.step n) i3, step_leaving (h.step n) i4⟩
  obtain ⟨i1, i2, i3, i4⟩ := main
  obtain ⟨a, b, c⟩ := h.whole n
  exact ⟨a, b, c, i1, i2, i3, i4⟩

/-- While a goroutine is in RequestStop, WaitForTermination or at the end of Restart, no other is in Start. -/
theorem Orderly.alone (h : Orderly sv clock ss es F) {n i : Nat} (h1 : ((ss n).api i).life = true) (h2 : ((ss n).api i).inStart = false) (j : Nat) :
    ((ss n).api j).inStart = false := by
  cases hj : ((ss n).api j).inStart with
  | false => rfl
  | true =>
    have hne : j ≠ i := by rintro rfl; rw [hj] at h2; cases h2
    have := h.apart n j i hne hj
    rw [h1] at this; cases this

theorem Orderly.stopped (h : Orderly sv clock ss es F) {n i : Nat} (h1 : ((ss n).api i).life = true) (h2 : ((ss n).api i).inStart = false)
    (hs : (ss n).stopped = true) : (ss (n + 1)).stopped = true := by
  rcases (step_effects (h.step n)).stopped with e | ⟨_, _, _, _, e⟩ | ⟨j, r, e, _⟩
  · rw [e]; exact hs
  · exact e
  · have := h.alone h1 h2 j
    rw [e] at this; cases this

theorem Endless.length (h : Endless sv clock ss es F) {n m : Nat} (hnm : n ≤ m) : (ss n).runs.length ≤ (ss m).runs.length := by
  induction hnm with
  | refl => exact Nat.le_refl _
  | @step m _ ih =>
    rcases step_runs (h.step m) with e | ⟨_, _, _, _, _, e⟩ | e <;> rw [e]
    · exact ih
    · rw [List.length_set]; exact ih
    · rw [List.length_append]; omega

theorem Orderly.no_spawn (h : Orderly sv clock ss es F) {n i : Nat} (h1 : ((ss n).api i).life = true) (h2 : ((ss n).api i).inStart = false) :
    (ss (n + 1)).runs.length = (ss n).runs.length := by
  rcases (step_effects (h.step n)).runs with e | ⟨j, r, e⟩
  · exact e
  · have := h.alone h1 h2 j
    rw [e] at this; cases this

theorem Woken.awake {pc pc' : ApiPc} (h : Woken pc pc') (h1 : pc.onWg = false) (h2 : pc.onInit = false) : pc' = pc := by
  cases h with
  | not => rfl
  | wg =>
    unfold ApiPc.wakeWg
    split
    · cases h1
    · rfl
  | init =>
    unfold ApiPc.wakeInit
    split
    · cases h2
    · cases h2
    · rfl

/-- A caller that is not asleep in a wait goes on. -/
theorem Endless.api_acts (h : Endless sv clock ss es F) {n i : Nat} (h1 : ((ss n).api i).onWg = false) (h2 : ((ss n).api i).onInit = false)
    (h3 : ((ss n).api i).life = true) (hL : Lively F ss := by first | exact .all | assumption) : ∃ m, n ≤ m ∧ (∀ j, n ≤ j → j ≤ m → (ss j).api i = (ss n).api i) ∧ (es m).of = some (.api i) ∧
      ApiNext (ss m) ((ss n).api i) ((ss (m + 1)).api i) := by
  have stays : ∀ {m}, n ≤ m → (∀ j, n ≤ j → j < m → (es j).of ≠ some (.api i)) → (ss m).api i = (ss n).api i := by
    intro m hm
    induction hm with
    | refl => intro _; rfl
    | @step m hm ih =>
      intro hno
      have e := ih fun j a b => hno j a (by omega)
      have hw := step_api_other (h.step m) (hno m hm (by omega))
      rw [e] at hw
      exact hw.awake h1 h2
  obtain ⟨m, m1, m2, m3⟩ := h.first_act (.api i) n (hF := hL.api i) fun hno m hm => by
    obtain ⟨m', a1, a2⟩ := h.mu_free m
    refine ⟨m', a1, ?_⟩
    have e := stays (show n ≤ m' by omega) fun j x _ => hno j x
    show ((ss m').api i).ready (ss m')
    rw [e]
    generalize (ss n).api i = pc at h1 h2 h3
    cases pc with
    | idle => cases h3
    | panicked => cases h3
    | start k r => cases k <;> first | exact a2 | trivial
    | stop k b =>
      cases k with
      | lock => exact a2
      | init k => cases k <;> trivial
      | _ => trivial
    | wait k r => cases k <;> trivial
    | restartInit k => cases k <;> trivial
    | finish => trivial
    | call p => trivial
  have hs : ∀ j, n ≤ j → j ≤ m → (ss j).api i = (ss n).api i := fun j a b => stays a fun j' c d => m3 j' c (by omega)
  refine ⟨m, m1, hs, m2, ?_⟩
  rcases step_api (h.step m) i with ⟨_, hn⟩ | ⟨hne, _⟩
  · rw [hs m m1 (Nat.le_refl _)] at hn; exact hn
  · exact absurd m2 hne

/-- An accept loop finishes its initialisation. -/
theorem Endless.run_inits (h : Endless sv clock ss es F) {n g : Nat} {r : RunG} (hg : (ss n).runs[g]? = some r) (hL : Lively F ss := by first | exact .all | assumption) :
    ∃ m r', n ≤ m ∧ (ss m).runs[g]? = some r' ∧ r'.pc.initializing = false := by
  generalize hx : r.pc.rank = x
  induction x using Nat.strongRecOn generalizing n r with
  | ind x ih =>
    cases hi : r.pc.initializing with
    | false => exact ⟨n, r, Nat.le_refl _, hg, hi⟩
    | true =>
      obtain ⟨m, m1, m2, m3⟩ := h.first_act (.run g) n (hF := hL.run g) fun hno m hm => by
        refine ⟨m, Nat.le_refl _, r, h.run_stays hm hg fun j a _ => hno j a, ?_⟩
        revert hi; generalize r.pc = pc; intro hi
        cases pc <;> trivial
      have e := h.run_stays m1 hg m3
      obtain ⟨r0, r', a1, a2, a3, _⟩ := step_run_self (h.step m) m2
      rw [e] at a1; cases a1
      have : r'.pc.rank < x := by
        have hn := a2.1
        subst hx
        revert hi hn; generalize r.pc = pc; generalize r'.pc = pc'; intro hi hn
        cases pc <;> first | (simp only [RunPc.next, List.mem_cons, List.not_mem_nil, or_false] at hn; subst hn; decide) | cases hi
      obtain ⟨m', r2, b1, b2, b3⟩ := ih _ this a3 rfl
      exact ⟨m', r2, by omega, b2, b3⟩

theorem Endless.run_was (h : Endless sv clock ss es F) {n m g : Nat} {r' : RunG} (hnm : n ≤ m) (hg : (ss m).runs[g]? = some r') (hl : g < (ss n).runs.length) :
    ∃ r, (ss n).runs[g]? = some r ∧ (r'.pc.running = true → r.pc.running = true) ∧ (r'.pc.initializing = true → r.pc.initializing = true) := by
  induction hnm generalizing r' with
  | refl => exact ⟨r', hg, id, id⟩
  | @step m hm ih =>
    rcases step_run_back (h.step m) hg with hb | ⟨r, hb, hn⟩ | ⟨hb, _⟩
    · exact ih hb
    · obtain ⟨r0, a, b, c⟩ := ih hb
      exact ⟨r0, a, fun x => b (running_back hn x), fun x => c (initializing_back hn x)⟩
    · have := List.getElem?_eq_none_iff.1 hb
      have := h.length hm
      omega

theorem initializing_running {pc : RunPc} (h : pc.initializing = true) : pc.running = true := by
  cases pc <;> first | rfl | cases h

theorem onInit_life {pc : ApiPc} (h : pc.onInit = true) : pc.life = true ∧ pc.inStart = false := by
  cases pc <;> first | exact ⟨rfl, rfl⟩ | cases h

theorem onWg_life {pc : ApiPc} (h : pc.onWg = true) : pc.life = true ∧ pc.inStart = false := by
  cases pc <;> first | exact ⟨rfl, rfl⟩ | cases h

/-- A caller asleep in a wait stays there until it is woken. -/
theorem asleep_step {s s' : Sys} {e : SEv} (h : Sys.Step s e s') {i : Nat} (ho : (s.api i).onWg = true ∨ (s.api i).onInit = true)
    (hx : s'.api i ≠ (s.api i).wakeWg.wakeInit) : s'.api i = s.api i := by
  rcases step_api h i with ⟨_, hn⟩ | ⟨_, hn⟩
  · exfalso
    generalize s.api i = pc at ho hn
    generalize s'.api i = pc' at hn
    cases hn with
    | initZero k _ hk => cases k <;> first | exact hk rfl | (rcases ho with ho | ho <;> cases ho)
    | waitZero k _ hk => cases k <;> first | exact hk rfl | (rcases ho with ho | ho <;> cases ho)
    | restartZero k hk => cases k <;> first | exact hk rfl | (rcases ho with ho | ho <;> cases ho)
    | _ => rcases ho with ho | ho <;> cases ho
  · generalize s.api i = pc at ho hn hx
    generalize s'.api i = pc' at hn hx
    cases hn with
    | not => rfl
    | wg =>
      cases pc with
      | wait k r => cases k <;> exact absurd rfl hx
      | _ => rfl
    | init =>
      cases pc with
      | stop k b =>
        cases k with
        | init k => cases k <;> exact absurd rfl hx
        | _ => rfl
      | restartInit k => cases k <;> exact absurd rfl hx
      | _ => rfl

/-- The first time at which something happens. -/
theorem first_time {P : Nat → Prop} {n m : Nat} (hnm : n ≤ m) (hp : P m) : ∃ m, n ≤ m ∧ P m ∧ ∀ j, n ≤ j → j < m → ¬ P j := by
  induction m using Nat.strongRecOn with
  | ind m ih =>
    by_cases hx : ∃ j, n ≤ j ∧ j < m ∧ P j
    · obtain ⟨j, a, b, c⟩ := hx
      exact ih j b a c
    · exact ⟨m, hnm, hp, fun j a b c => hx ⟨j, a, b, c⟩⟩

/-- A caller asleep is woken, if it does not sleep for ever. -/
theorem Endless.wakes (h : Endless sv clock ss es F) {n i : Nat} (ho : ((ss n).api i).onWg = true ∨ ((ss n).api i).onInit = true)
    (hno : ¬ ∀ m, n ≤ m → (ss m).api i = (ss n).api i) :
    ∃ m, n ≤ m ∧ (ss m).api i = ((ss n).api i).wakeWg.wakeInit ∧ ∀ j, n ≤ j → j < m → (ss j).api i = (ss n).api i := by
  have stays : ∀ {m}, n ≤ m → (∀ j, n ≤ j → j ≤ m → (ss j).api i ≠ ((ss n).api i).wakeWg.wakeInit) → (ss m).api i = (ss n).api i := by
    intro m hm
    induction hm with
    | refl => intro _; rfl
    | @step m hm ih =>
      intro hx
      have ih := ih fun j a b => hx j a (by omega)
      rw [← ih]
      exact asleep_step (h.step m) (by rw [ih]; exact ho) (by rw [ih]; exact hx (m + 1) (Nat.le_succ_of_le hm) (Nat.le_refl _))
  have ex : ∃ m, n ≤ m ∧ (ss m).api i = ((ss n).api i).wakeWg.wakeInit :=
    Classical.byContradiction fun hc => hno fun m hm => stays hm fun j a _ b => hc ⟨j, a, b⟩
  obtain ⟨m, a, b⟩ := ex
  obtain ⟨m, a, b, c⟩ := first_time (P := fun m => (ss m).api i = ((ss n).api i).wakeWg.wakeInit) a b
  exact ⟨m, a, b, fun j j1 j2 => stays j1 fun j' x y => c j' x (by omega)⟩

/-- With nobody in Start, `km.initializing` counts the accept loops that initialise. -/
theorem Orderly.init_pos (h : Orderly sv clock ss es F) {n i : Nat} (h1 : ((ss n).api i).life = true) (h2 : ((ss n).api i).inStart = false)
    (hp : 0 < (ss n).init) : ∃ (g : Nat) (r : RunG), (ss n).runs[g]? = some r ∧ r.pc.initializing = true := by
  have h0 := (h.inv n).inv.init
  have hz : (ss n).ofHolder ApiPc.startingInit = 0 := by
    unfold Sys.ofHolder
    split
    · next j _ =>
      have := h.alone h1 h2 j
      revert this; generalize (ss n).api j = pc; intro this
      cases pc <;> first | rfl | cases this
    · rfl
  have : 0 < (ss n).runs.countP (·.pc.initializing) := by omega
  obtain ⟨r, a, b⟩ := List.countP_pos_iff.1 this
  obtain ⟨g, hg⟩ := List.mem_iff_getElem?.1 a
  exact ⟨g, r, hg, b⟩

/-- A wait for `km.initializing` ends. -/
theorem Orderly.init_wakes (h : Orderly sv clock ss es F) {n i : Nat} (ho : ((ss n).api i).onInit = true) (hL : Lively F ss := by first | exact .all | assumption) :
    ∃ m, n ≤ m ∧ (ss m).api i = ((ss n).api i).wakeWg.wakeInit ∧ ∀ j, n ≤ j → j < m → (ss j).api i = (ss n).api i := by
  refine h.wakes (.inr ho) fun hall => ?_
  have hlf := onInit_life ho
  have life : ∀ m, n ≤ m → ((ss m).api i).life = true ∧ ((ss m).api i).inStart = false := fun m hm => by rw [hall m hm]; exact hlf
  have len : ∀ m, n ≤ m → (ss m).runs.length = (ss n).runs.length := by
    intro m hm
    induction hm with
    | refl => rfl
    | @step m hm ih => rw [h.no_spawn (life m hm).1 (life m hm).2, ih]
  obtain ⟨g, r, g1, g2⟩ := h.init_pos hlf.1 hlf.2 (((h.inv n).asleep i).2 ho)
  obtain ⟨m, r', m1, m2, m3⟩ := h.run_inits g1
  obtain ⟨g', r2, g3, g4⟩ := h.init_pos (life m m1).1 (life m m1).2 (((h.inv m).asleep i).2 (by rw [hall m m1]; exact ho))
  obtain ⟨r3, a1, _, a3⟩ := h.run_was m1 g3 (by have := (List.getElem?_eq_some_iff.1 g3).1; rw [len m m1] at this; exact this)
  have := running_unique (h.inv n).inv g1 a1 (initializing_running g2) (initializing_running (a3 g4))
  subst this
  rw [m2] at g3; cases g3
  rw [m3] at g4; cases g4

/-- How many steps RequestStop has left. -/
def StopPc.left : StopPc → Nat
  | .swap => 9
  | .load => 8
  | .init .enter => 7
  | .init .asleep => 6
  | .init .woken => 5
  | .lock => 4
  | .close => 3
  | .unlock => 2
  | .cancel => 1

/-- RequestStop returns; from then on, until Start is called, `stopped` is set. -/
theorem Orderly.stop_next (h : Orderly sv clock ss es F) {n i : Nat} {k : StopPc} {b : StopBy} (hp : (ss n).api i = .stop k b) (hL : Lively F ss := by first | exact .all | assumption) :
    ∃ m, n < m ∧ (ss m).api i = b.next ∧ (ss m).stopped = true ∧ ∀ j, n ≤ j → j < m → ∃ k, (ss j).api i = .stop k b := by
  generalize hx : k.left = x
  induction x using Nat.strongRecOn generalizing n k with
  | ind x ih =>
    -- go on from a later point of RequestStop
    have later : ∀ {m : Nat} {k' : StopPc}, n ≤ m → (ss m).api i = .stop k' b → k'.left < x → (∀ j, n ≤ j → j < m → ∃ k, (ss j).api i = .stop k b) →
        ∃ m, n < m ∧ (ss m).api i = b.next ∧ (ss m).stopped = true ∧ ∀ j, n ≤ j → j < m → ∃ k, (ss j).api i = .stop k b := by
      intro m k' hm hp' hl hb
      obtain ⟨m', a1, a2, a3, a4⟩ := ih _ hl hp' rfl
      refine ⟨m', by omega, a2, a3, fun j j1 j2 => ?_⟩
      rcases Nat.lt_or_ge j m with hj | hj
      · exact hb j j1 hj
      · exact a4 j hj j2
    by_cases hs : k = .init .asleep
    · subst hs
      obtain ⟨m, m1, m2, m3⟩ := h.init_wakes (n := n) (i := i) (by rw [hp]; rfl)
      rw [hp] at m2
      exact later (k' := .init .woken) m1 m2 (by subst hx; decide) fun j a b => ⟨_, (m3 j a b).trans hp⟩
    · obtain ⟨m, m1, m2, m3, m4⟩ := h.api_acts (n := n) (i := i) (by rw [hp]; rfl)
        (by rw [hp]; cases k with | init k => (cases k <;> first | rfl | exact absurd rfl hs) | _ => rfl) (by rw [hp]; rfl)
      have hpm : (ss m).api i = .stop k b := (m2 m m1 (Nat.le_refl _)).trans hp
      have before : ∀ j, n ≤ j → j < m + 1 → ∃ k, (ss j).api i = .stop k b := fun j a b => ⟨k, (m2 j a (by omega)).trans hp⟩
      have ret : (ss (m + 1)).api i = b.next → (ss m).stopped = true →
          ∃ m, n < m ∧ (ss m).api i = b.next ∧ (ss m).stopped = true ∧ ∀ j, n ≤ j → j < m → ∃ k, (ss j).api i = .stop k b := fun e hst =>
        ⟨m + 1, by omega, e, h.stopped (by rw [hpm]; rfl) (by rw [hpm]; rfl) hst, before⟩
      rw [hp] at m4
      generalize hq : (ss (m + 1)).api i = pc' at m4 ret
      have ha := (h.inv m).apart
      cases m4 with
      | again _ hst => exact ret rfl hst
      | unstarted _ _ => exact ret rfl (ha.inStop i (by rw [hpm]; rfl))
      | cancel _ _ => exact ret rfl (ha.inStop i (by rw [hpm]; rfl))
      | cancelNil _ hc => exact absurd hc (ha.tearing i (by rw [hpm]; rfl))
      | initReused _ hc => exact absurd (ha.wokenInit i (by rw [hpm]; rfl)) hc
      | initZero k _ hk => exact later (by omega) hq (by subst hx; cases k <;> decide) before
      | _ => exact later (by omega) hq (by subst hx; decide) before

/-- An accept loop that has cleared `started` ends. -/
theorem Endless.run_leaves (h : Endless sv clock ss es) {n g : Nat} {r : RunG} (hg : (ss n).runs[g]? = some r) (hr : r.pc.running = false) :
    ∃ m r', n ≤ m ∧ (ss m).runs[g]? = some r' ∧ r'.pc = .ended := by
  by_cases he : r.pc = .ended
  · exact ⟨n, r, Nat.le_refl _, hg, he⟩
  have hw : r.pc = .wgDone := by
    revert hr he; generalize r.pc = pc; intro hr he
    cases pc <;> first | rfl | exact absurd rfl he | cases hr
  obtain ⟨m, m1, m2, m3⟩ := h.first_act (.run g) n fun hno m hm => ⟨m, Nat.le_refl _, r, h.run_stays hm hg fun j a _ => hno j a, by rw [hw]; trivial⟩
  have e := h.run_stays m1 hg m3
  obtain ⟨r0, r', a1, a2, a3, _⟩ := step_run_self (h.step m) m2
  rw [e] at a1; cases a1
  have hn := a2.1
  rw [hw] at hn
  simp only [RunPc.next, List.mem_cons, List.not_mem_nil, or_false] at hn
  exact ⟨m + 1, r', by omega, a3, hn⟩

theorem Endless.run_ended (h : Endless sv clock ss es) {n m g : Nat} {r : RunG} (hnm : n ≤ m) (hg : (ss n).runs[g]? = some r) (hp : r.pc = .ended) :
    (ss m).runs[g]? = some r := by
  induction hnm with
  | refl => exact hg
  | @step m _ ih =>
    refine step_run_other (h.step m) ih fun he => ?_
    obtain ⟨r0, r', h1, h2, _⟩ := step_run_self (h.step m) he
    rw [ih] at h1; cases h1
    have hn := h2.1
    rw [hp] at hn
    cases hn

/-- Once `stopped` is set, a wait for `km.wg` ends. -/
theorem Orderly.wg_wakes (h : Orderly sv clock ss es) (hf : ¬ Feeds ss es) {n i : Nat} (ho : ((ss n).api i).onWg = true) (hst : (ss n).stopped = true) :
    ∃ m, n ≤ m ∧ (ss m).api i = ((ss n).api i).wakeWg.wakeInit ∧ ∀ j, n ≤ j → j < m → (ss j).api i = (ss n).api i := by
  refine h.wakes (.inl ho) fun hall => ?_
  have hlf := onWg_life ho
  have life : ∀ m, n ≤ m → ((ss m).api i).life = true ∧ ((ss m).api i).inStart = false := fun m hm => by rw [hall m hm]; exact hlf
  have len : ∀ {n' m : Nat}, n ≤ n' → n' ≤ m → (ss m).runs.length = (ss n').runs.length := by
    intro n' m hn hm
    induction hm with
    | refl => rfl
    | @step m hm ih => rw [h.no_spawn (life m (Nat.le_trans hn hm)).1 (life m (Nat.le_trans hn hm)).2, ih]
  have stopped : ∀ m, n ≤ m → (ss m).stopped = true := by
    intro m hm
    induction hm with
    | refl => exact hst
    | @step m hm ih => exact h.stopped (life m hm).1 (life m hm).2 ih
  have noMore : ∀ {m m' j : Nat}, n ≤ m → m ≤ m' → inStop ((ss m).api j) = false → inStop ((ss m').api j) = false := by
    intro m m' j hm hmm hj
    induction hmm with
    | refl => exact hj
    | @step m' hmm ih =>
      cases hx : inStop ((ss (m' + 1)).api j) with
      | false => rfl
      | true =>
        rcases inStop_from (h.step m') hx with e | ⟨_, e, _⟩
        · rw [ih] at e; cases e
        · rw [stopped m' (Nat.le_trans hm hmm)] at e; cases e
  -- whoever is in RequestStop returns
  obtain ⟨m1, hm1, hno⟩ : ∃ m1, n ≤ m1 ∧ ∀ j, inStop ((ss m1).api j) = false := by
    by_cases hx : ∃ j, inStop ((ss n).api j) = true
    · obtain ⟨j, hj⟩ := hx
      obtain ⟨k, b, hp⟩ : ∃ k b, (ss n).api j = .stop k b := by
        revert hj; generalize (ss n).api j = pc; intro hj
        cases pc <;> first | exact ⟨_, _, rfl⟩ | cases hj
      obtain ⟨m, a1, a2, _, _⟩ := h.stop_next hp
      refine ⟨m, by omega, fun j' => ?_⟩
      by_cases hjj : j' = j
      · subst hjj; rw [a2]; cases b <;> rfl
      · refine noMore (Nat.le_refl _) (by omega) ?_
        cases hy : inStop ((ss n).api j') with
        | false => rfl
        | true => exact absurd ((h.inv n).apart.once j' j hy hj) hjj
    · refine ⟨n, Nat.le_refl _, fun j => ?_⟩
      cases hy : inStop ((ss n).api j) with
      | false => rfl
      | true => exact absurd ⟨j, hy⟩ hx
  have down := fun m (hm : m1 ≤ m) => (h.inv m).apart.stop (stopped m (by omega)) fun j => noMore (by omega) hm (hno j)
  -- all accept loops end
  have all : ∀ L, L ≤ (ss m1).runs.length → ∃ M, m1 ≤ M ∧ ∀ g, g < L → ∃ r, (ss M).runs[g]? = some r ∧ r.pc = .ended := by
    intro L
    induction L with
    | zero => intro _; exact ⟨m1, Nat.le_refl _, fun c h => absurd h (Nat.not_lt_zero _)⟩
    | succ L ih =>
      intro hL
      obtain ⟨M, h1, h2⟩ := ih (by omega)
      obtain ⟨r, hr⟩ : ∃ r, (ss M).runs[L]? = some r := ⟨_, List.getElem?_eq_getElem (by rw [len hm1 h1]; omega)⟩
      have : ∃ m r', M ≤ m ∧ (ss m).runs[L]? = some r' ∧ r'.pc = .ended := by
        cases hrun : r.pc.running with
        | false => exact h.run_leaves hr hrun
        | true =>
          obtain ⟨c1, c2⟩ := down M h1 L r hr hrun
          exact h.run_ends hf hr c1 c2
      obtain ⟨M', r', h3, h4, h5⟩ := this
      refine ⟨M', by omega, fun g hg => ?_⟩
      rcases Nat.lt_or_ge g L with hc' | hc'
      · obtain ⟨k', a, b⟩ := h2 g hc'
        exact ⟨k', h.run_ended h3 a b, b⟩
      · have : g = L := by omega
        subst this
        exact ⟨r', h4, h5⟩
  obtain ⟨M, hM, hM2⟩ := all _ (Nat.le_refl _)
  have ended : ∀ (m : Nat), M ≤ m → ∀ (g : Nat) (r : RunG), (ss m).runs[g]? = some r → r.pc = .ended := by
    intro m hm g r hg
    have hlt := (List.getElem?_eq_some_iff.1 hg).1
    rw [len hm1 (show m1 ≤ m by omega)] at hlt
    obtain ⟨r', a, b⟩ := hM2 g hlt
    have := h.run_ended hm a b
    rw [hg] at this; cases this; exact b
  -- no connections any more
  have clen : ∀ m, M ≤ m → (ss m).conns.length = (ss M).conns.length := by
    intro m hm
    induction hm with
    | refl => rfl
    | @step m hm ih =>
      rw [← ih]
      cases (h.step m).shape with
      | quiet e => rw [e]
      | reset _ _ _ e => rw [e]
      | loop _ _ _ _ _ _ _ e => rw [e]
      | register g' r' hg' hp' _ _ _ =>
        have := ended m hm g' r' hg'
        rw [hp'] at this; cases this
      | conn _ _ _ _ _ _ e => rw [e, List.length_set]
      | delete _ _ _ _ _ _ e => rw [e, List.length_set]
  have call : ∀ L, L ≤ (ss M).conns.length → ∃ M', M ≤ M' ∧ ∀ c, c < L → ∃ k, (ss M').conns[c]? = some k ∧ k.pc = .ended := by
    intro L
    induction L with
    | zero => intro _; exact ⟨M, Nat.le_refl _, fun c h => absurd h (Nat.not_lt_zero _)⟩
    | succ L ih =>
      intro hL
      obtain ⟨M', h1, h2⟩ := ih (by omega)
      obtain ⟨k, hk⟩ : ∃ k, (ss M').conns[L]? = some k := ⟨_, List.getElem?_eq_getElem (by rw [clen M' h1]; omega)⟩
      obtain ⟨M2, h3, h4⟩ := h.conn_ends hf hk fun p hp' => by
        obtain ⟨r, a1, a2⟩ := (h.inv M').attended L k hk (by rw [hp']; rfl)
        have := ended M' h1 _ r a1
        rw [this] at a2; cases a2
      refine ⟨M2, by omega, fun c hc => ?_⟩
      rcases Nat.lt_or_ge c L with hc' | hc'
      · obtain ⟨k', a, b⟩ := h2 c hc'
        exact ⟨k', h.conn_ended h3 a b, b⟩
      · have : c = L := by omega
        subst this
        exact ⟨_, h4, rfl⟩
  obtain ⟨E, hE, hE2⟩ := call _ (Nat.le_refl _)
  have hpos := ((h.inv E).asleep i).1 (by rw [hall E (by omega)]; exact ho)
  have hw := (h.inv E).inv.wg
  have z1 : (ss E).ofHolder ApiPc.startingWg = 0 := by
    unfold Sys.ofHolder
    split
    · next j _ =>
      have := h.alone (life E (by omega)).1 (life E (by omega)).2 j
      revert this; generalize (ss E).api j = pc; intro this
      cases pc <;> first | rfl | cases this
    · rfl
  have z2 : (ss E).runs.countP (·.pc.inWg) = 0 := by
    rw [List.countP_eq_zero]
    intro r hr
    obtain ⟨g, hg⟩ := List.getElem?_of_mem hr
    rw [ended E hE g r hg]; decide
  have z3 : (ss E).conns.countP (·.pc.inWg) = 0 := by
    rw [List.countP_eq_zero]
    intro k hk
    obtain ⟨c, hc⟩ := List.getElem?_of_mem hk
    have hlt := (List.getElem?_eq_some_iff.1 hc).1
    rw [clen E hE] at hlt
    obtain ⟨k', a, b⟩ := hE2 c hlt
    rw [hc] at a; cases a
    rw [b]; decide
  omega

/-- Once `stopped` is set, the wait in WaitForTermination returns, with `km.wg` zero. -/
theorem Orderly.wait_next (h : Orderly sv clock ss es) (hf : ¬ Feeds ss es) {n i : Nat} {k : WaitPc} {r : Bool} (hp : (ss n).api i = .wait k r)
    (hst : (ss n).stopped = true) :
    ∃ m, n < m ∧ (ss m).api i = .stop .swap (if r then .restartWait else .wait) ∧ ∀ j, n ≤ j → j < m → ∃ k, (ss j).api i = .wait k r := by
  have woken : ∀ {n : Nat}, (ss n).api i = .wait .woken r →
      ∃ m, n < m ∧ (ss m).api i = .stop .swap (if r then .restartWait else .wait) ∧ ∀ j, n ≤ j → j < m → ∃ k, (ss j).api i = .wait k r := by
    intro n hp
    obtain ⟨m, m1, m2, m3, m4⟩ := h.api_acts (n := n) (i := i) (by rw [hp]; rfl) (by rw [hp]; rfl) (by rw [hp]; rfl)
    have hpm : (ss m).api i = .wait .woken r := (m2 m m1 (Nat.le_refl _)).trans hp
    rw [hp] at m4
    generalize hq : (ss (m + 1)).api i = pc' at m4
    cases m4 with
    | waitZero => exact ⟨m + 1, by omega, hq, fun j a b => ⟨_, (m2 j a (by omega)).trans hp⟩⟩
    | waitReused _ hc => exact absurd ((h.inv m).apart.wokenWg i (by rw [hpm]; rfl)) hc
  have asleep : ∀ {n : Nat}, (ss n).api i = .wait .asleep r → (ss n).stopped = true →
      ∃ m, n < m ∧ (ss m).api i = .stop .swap (if r then .restartWait else .wait) ∧ ∀ j, n ≤ j → j < m → ∃ k, (ss j).api i = .wait k r := by
    intro n hp hst
    obtain ⟨m, m1, m2, m3⟩ := h.wg_wakes hf (n := n) (i := i) (by rw [hp]; rfl) hst
    rw [hp] at m2
    obtain ⟨m', a1, a2, a3⟩ := woken m2
    refine ⟨m', by omega, a2, fun j j1 j2 => ?_⟩
    rcases Nat.lt_or_ge j m with hj | hj
    · exact ⟨_, (m3 j j1 hj).trans hp⟩
    · exact a3 j hj j2
  cases k with
  | woken => exact woken hp
  | asleep => exact asleep hp hst
  | enter =>
    obtain ⟨m, m1, m2, m3, m4⟩ := h.api_acts (n := n) (i := i) (by rw [hp]; rfl) (by rw [hp]; rfl) (by rw [hp]; rfl)
    have before : ∀ j, n ≤ j → j < m + 1 → (ss j).api i = .wait .enter r := fun j a b => (m2 j a (by omega)).trans hp
    have hst' : ∀ j, n ≤ j → j ≤ m + 1 → (ss j).stopped = true := by
      intro j hj
      induction hj with
      | refl => intro _; exact hst
      | @step j hj ih =>
        intro hjm
        have hb := before j hj (by omega)
        exact h.stopped (by rw [hb]; rfl) (by rw [hb]; rfl) (ih (by omega))
    rw [hp] at m4
    generalize hq : (ss (m + 1)).api i = pc' at m4
    cases m4 with
    | waitZero => exact ⟨m + 1, by omega, hq, fun j a b => ⟨_, before j a b⟩⟩
    | waitSleep =>
      obtain ⟨m', a1, a2, a3⟩ := asleep hq (hst' _ (by omega) (by omega))
      refine ⟨m', by omega, a2, fun j j1 j2 => ?_⟩
      rcases Nat.lt_or_ge j (m + 1) with hj | hj
      · exact ⟨_, before j j1 hj⟩
      · exact a3 j hj j2

/-- The wait at the end of Restart ends. -/
theorem Orderly.restart_next (h : Orderly sv clock ss es) {n i : Nat} {k : WaitPc} (hp : (ss n).api i = .restartInit k) :
    ∃ m, n < m ∧ (ss m).api i = .idle ∧ (∃ k, (ss (m - 1)).api i = .restartInit k) ∧ (ss (m - 1)).init = 0 ∧ (es (m - 1)).of = some (.api i) ∧
      ∀ j, n ≤ j → j < m → ∃ k, (ss j).api i = .restartInit k := by
  have woken : ∀ {n : Nat}, (ss n).api i = .restartInit .woken → ∃ m, n < m ∧ (ss m).api i = .idle ∧ (∃ k, (ss (m - 1)).api i = .restartInit k) ∧
      (ss (m - 1)).init = 0 ∧ (es (m - 1)).of = some (.api i) ∧ ∀ j, n ≤ j → j < m → ∃ k, (ss j).api i = .restartInit k := by
    intro n hp
    obtain ⟨m, m1, m2, m3, m4⟩ := h.api_acts (n := n) (i := i) (by rw [hp]; rfl) (by rw [hp]; rfl) (by rw [hp]; rfl)
    have hpm : (ss m).api i = .restartInit .woken := (m2 m m1 (Nat.le_refl _)).trans hp
    rw [hp] at m4
    generalize hq : (ss (m + 1)).api i = pc' at m4
    cases m4 with
    | restartZero _ _ hz => exact ⟨m + 1, by omega, hq, ⟨_, hpm⟩, hz, m3, fun j a b => ⟨_, (m2 j a (by omega)).trans hp⟩⟩
    | restartReused hc => exact absurd ((h.inv m).apart.wokenInit i (by rw [hpm]; rfl)) hc
  have asleep : ∀ {n : Nat}, (ss n).api i = .restartInit .asleep → ∃ m, n < m ∧ (ss m).api i = .idle ∧ (∃ k, (ss (m - 1)).api i = .restartInit k) ∧
      (ss (m - 1)).init = 0 ∧ (es (m - 1)).of = some (.api i) ∧ ∀ j, n ≤ j → j < m → ∃ k, (ss j).api i = .restartInit k := by
    intro n hp
    obtain ⟨m, m1, m2, m3⟩ := h.init_wakes (n := n) (i := i) (by rw [hp]; rfl)
    rw [hp] at m2
    obtain ⟨m', a1, a2, a3, a4, a5, a6⟩ := woken m2
    refine ⟨m', by omega, a2, a3, a4, a5, fun j j1 j2 => ?_⟩
    rcases Nat.lt_or_ge j m with hj | hj
    · exact ⟨_, (m3 j j1 hj).trans hp⟩
    · exact a6 j hj j2
  cases k with
  | woken => exact woken hp
  | asleep => exact asleep hp
  | enter =>
    obtain ⟨m, m1, m2, m3, m4⟩ := h.api_acts (n := n) (i := i) (by rw [hp]; rfl) (by rw [hp]; rfl) (by rw [hp]; rfl)
    have hpm : (ss m).api i = .restartInit .enter := (m2 m m1 (Nat.le_refl _)).trans hp
    have before : ∀ j, n ≤ j → j < m + 1 → (ss j).api i = .restartInit .enter := fun j a b => (m2 j a (by omega)).trans hp
    rw [hp] at m4
    generalize hq : (ss (m + 1)).api i = pc' at m4
    cases m4 with
    | restartZero _ _ hz => exact ⟨m + 1, by omega, hq, ⟨_, hpm⟩, hz, m3, fun j a b => ⟨_, before j a b⟩⟩
    | restartSleep =>
      obtain ⟨m', a1, a2, a3, a4, a5, a6⟩ := asleep hq
      refine ⟨m', by omega, a2, a3, a4, a5, fun j j1 j2 => ?_⟩
      rcases Nat.lt_or_ge j (m + 1) with hj | hj
      · exact ⟨_, before j j1 hj⟩
      · exact a6 j hj j2

/-! ### Start -/

/-- How many steps Start has left. -/
def StartPc.left : StartPc → Nat
  | .lock => 10
  | .swap => 9
  | .reset => 8
  | .unstop => 7
  | .derive => 6
  | .addWg => 5
  | .addInit => 4
  | .spawn => 3
  | .unlock => 2
  | .panicUnlock => 1

/-- The accept loops that run were started after the first `L`. -/
def Since (L : Nat) (s : Sys) : Prop := ∀ (g : Nat) (r : RunG), s.runs[g]? = some r → r.pc.running = true → L ≤ g

theorem step_since {s s' : Sys} {e : SEv} (h : Sys.Step s e s') {L : Nat} (hL : L ≤ s.runs.length) (hs : Since L s) : Since L s' := by
  intro g r' hg hr
  rcases step_run_back h hg with hb | ⟨r, hb, hn⟩ | ⟨hb, _⟩
  · exact hs g r' hb hr
  · exact hs g r hb (running_back hn hr)
  · have := List.getElem?_eq_none_iff.1 hb
    omega

theorem Endless.since (h : Endless sv clock ss es) {n m L : Nat} (hnm : n ≤ m) (hL : L ≤ (ss n).runs.length) (hs : Since L (ss n)) : Since L (ss m) := by
  induction hnm with
  | refl => exact hs
  | @step m hm ih => exact step_since (h.step m) (Nat.le_trans hL (h.length hm)) ih

/-- Start returns, or panics because the mock is started. -/
theorem Orderly.start_next (h : Orderly sv clock ss es) {n i L : Nat} {k : StartPc} {r : Bool} (hp : (ss n).api i = .start k r) (hL : L ≤ (ss n).runs.length)
    (hk : k = .lock ∨ k = .swap ∨ k = .panicUnlock ∨ Since L (ss n)) :
    ∃ m, n < m ∧ ((r = false ∧ (ss m).api i = .panicked .startTwice) ∨
        ((ss m).api i = (if r then .restartInit .enter else .idle) ∧ Since L (ss m) ∧ (ss (m - 1)).api i = .start .unlock r ∧ (es (m - 1)).of = some (.api i))) ∧
      ∀ j, n ≤ j → j < m → ∃ k, (ss j).api i = .start k r := by
  generalize hx : k.left = x
  induction x using Nat.strongRecOn generalizing n k with
  | ind x ih =>
    obtain ⟨m, m1, m2, m3, m4⟩ := h.api_acts (n := n) (i := i) (by rw [hp]; rfl) (by rw [hp]; rfl) (by rw [hp]; rfl)
    have hpm : (ss m).api i = .start k r := (m2 m m1 (Nat.le_refl _)).trans hp
    have before : ∀ j, n ≤ j → j < m + 1 → (ss j).api i = .start k r := fun j a b => (m2 j a (by omega)).trans hp
    have hLm : L ≤ (ss m).runs.length := Nat.le_trans hL (h.length m1)
    have later : ∀ {k' : StartPc}, (ss (m + 1)).api i = .start k' r → k'.left < x → (k' = .lock ∨ k' = .swap ∨ k' = .panicUnlock ∨ Since L (ss (m + 1))) →
        ∃ m, n < m ∧ ((r = false ∧ (ss m).api i = .panicked .startTwice) ∨
          ((ss m).api i = (if r then .restartInit .enter else .idle) ∧ Since L (ss m) ∧ (ss (m - 1)).api i = .start .unlock r ∧ (es (m - 1)).of = some (.api i))) ∧
        ∀ j, n ≤ j → j < m → ∃ k, (ss j).api i = .start k r := by
      intro k' hp' hl hb
      obtain ⟨m', a1, a2, a3⟩ := ih _ hl hp' (Nat.le_trans hLm (h.length (Nat.le_succ _))) hb rfl
      refine ⟨m', by omega, a2, fun j j1 j2 => ?_⟩
      rcases Nat.lt_or_ge j (m + 1) with hj | hj
      · exact ⟨_, before j j1 hj⟩
      · exact a3 j hj j2
    have keep : (k ≠ .lock) → (k ≠ .swap) → (k ≠ .panicUnlock) → Since L (ss (m + 1)) := by
      intro a b c
      rcases hk with hk | hk | hk | hk
      · exact absurd hk a
      · exact absurd hk b
      · exact absurd hk c
      · exact h.since (by omega) hL hk
    have ha := (h.inv (m + 1)).apart
    rw [hp] at m4
    generalize hq : (ss (m + 1)).api i = pc' at m4
    cases m4 with
    | startLock => exact later hq (by subst hx; decide) (.inr (.inl rfl))
    | twice => exact later hq (by subst hx; decide) (.inr (.inr (.inl rfl)))
    | swapStart _ hz =>
      refine later hq (by subst hx; decide) (.inr (.inr (.inr (step_since (h.step m) hLm fun g r' hg hr => ?_))))
      have h0 := (h.inv m).inv.started
      rw [hz] at h0
      have h1 : (ss m).runs.countP (·.pc.running) = 0 := by simp only [Bool.false_eq_true, if_false] at h0; omega
      have := running_count h1 hg
      rw [hr] at this; cases this
    | panicUnlock =>
      cases r with
      | true => exact absurd hpm ((h.inv m).apart.twice i)
      | false => exact ⟨m + 1, by omega, .inl ⟨rfl, hq⟩, fun j a b => ⟨_, before j a b⟩⟩
    | started => exact ⟨m + 1, by omega, .inr ⟨hq, keep (by decide) (by decide) (by decide), hpm, m3⟩, fun j a b => ⟨_, before j a b⟩⟩
    | restarted => exact ⟨m + 1, by omega, .inr ⟨hq, keep (by decide) (by decide) (by decide), hpm, m3⟩, fun j a b => ⟨_, before j a b⟩⟩
    | _ => exact later hq (by subst hx; decide) (.inr (.inr (.inr (keep (by decide) (by decide) (by decide)))))

/-! ### Restart -/

/-- While a caller is at the end of Start, or of Restart, and no stop was requested, the mock is started. -/
theorem Orderly.serving (h : Orderly sv clock ss es) (n : Nat) : ∀ i, ((∃ r, (ss n).api i = .start .unlock r) ∨ ∃ k, (ss n).api i = .restartInit k) →
    (ss n).stopped = false → ∃ (g : Nat) (r : RunG), (ss n).runs[g]? = some r ∧ r.pc.running = true := by
  induction n with
  | zero =>
    intro i hi
    rw [h.first] at hi
    rcases hi with ⟨_, hi⟩ | ⟨_, hi⟩ <;> cases hi
  | succ n ih =>
    intro i hi hst
    have key : ((∃ r, (ss n).api i = .start .unlock r) ∨ ∃ k, (ss n).api i = .restartInit k) →
        ∃ (g : Nat) (r : RunG), (ss (n + 1)).runs[g]? = some r ∧ r.pc.running = true := by
      intro hi0
      have hs : (ss n).stopped = false := by
        rcases (step_effects (h.step n)).stopped with e | ⟨_, _, _, _, e⟩ | ⟨j, r, e, _⟩
        · rw [← e]; exact hst
        · rw [hst] at e; cases e
        · exfalso
          have hij : j ≠ i := by
            rintro rfl
            rw [e] at hi0
            rcases hi0 with ⟨_, hi⟩ | ⟨_, hi⟩ <;> cases hi
          have := h.apart n j i hij (by rw [e]; rfl)
          rcases hi0 with ⟨_, hi⟩ | ⟨_, hi⟩ <;> rw [hi] at this <;> cases this
      obtain ⟨g, r, g1, g2⟩ := ih i hi0 hs
      by_cases he : (es n).of = some (.run g)
      · obtain ⟨r0, r', a1, a2, a3, _⟩ := step_run_self (h.step n) he
        rw [g1] at a1; cases a1
        refine ⟨g, r', a3, ?_⟩
        cases hr : r'.pc.running with
        | true => rfl
        | false =>
          exfalso
          have hn := a2.1
          have : r.pc = .storeStarted := by
            revert hn g2 hr; generalize r.pc = pc; generalize r'.pc = pc'; intro g2 hn hr
            cases pc <;> simp only [RunPc.next, List.mem_cons, List.not_mem_nil, or_false] at hr <;>
              first | rfl | exact absurd g2 (by decide) | (subst hr; cases hn) | (rcases hr with hr | hr <;> subst hr <;> cases hn)
          exact (h.inv n).apart.open' hs g r g1 g2 ((h.inv n).leaving g r g1 (.inr (.inl this)))
      · exact ⟨g, r, step_run_other (h.step n) g1 he, g2⟩
    rcases step_api (h.step n) i with ⟨he, hn⟩ | ⟨_, hn⟩
    · have hspawn : ∀ {r : Bool}, (ss n).api i = .start .spawn r → ∃ (g : Nat) (r : RunG), (ss (n + 1)).runs[g]? = some r ∧ r.pc.running = true := by
        intro r hp
        rcases step_by_api (h.step n) he with ⟨c, hs⟩ | ⟨_, _, _, _, hp', _⟩
        · simp only [Sys.apiStep, hp, Sys.startStep, Out.ok.injEq] at hs
          rw [← hs]
          refine ⟨(ss n).runs.length, ⟨.listen, 0⟩, ?_, rfl⟩
          show ((ss n).runs ++ [⟨.listen, 0⟩])[(ss n).runs.length]? = _
          simp
        · rw [hp] at hp'; cases hp'
      generalize hq : (ss n).api i = pc at hn
      generalize (ss (n + 1)).api i = pc' at hn hi
      cases hn with
      | spawn r => exact hspawn hq
      | restarted => exact key (.inl ⟨_, hq⟩)
      | restartSleep => exact key (.inr ⟨_, hq⟩)
      | call c => cases c <;> rcases hi with ⟨_, hi⟩ | ⟨_, hi⟩ <;> cases hi
      | again b | unstarted b | cancel b => cases b <;> rcases hi with ⟨_, hi⟩ | ⟨_, hi⟩ <;> cases hi
      | _ => rcases hi with ⟨_, hi⟩ | ⟨_, hi⟩ <;> cases hi
    · refine key ?_
      generalize (ss n).api i = pc at hn
      generalize (ss (n + 1)).api i = pc' at hn hi
      cases hn with
      | not => exact hi
      | wg =>
        unfold ApiPc.wakeWg at hi
        split at hi
        · rcases hi with ⟨_, hi⟩ | ⟨_, hi⟩ <;> cases hi
        · exact hi
      | init =>
        unfold ApiPc.wakeInit at hi
        split at hi
        · rcases hi with ⟨_, hi⟩ | ⟨_, hi⟩ <;> cases hi
        · exact .inr ⟨_, rfl⟩
        · exact hi

/-- Restart returns. When it does and no stop was requested meanwhile, an accept loop started by it, whose listener is open, is what `km.listener` holds. -/
theorem Orderly.restart_returns (h : Orderly sv clock ss es) (hf : ¬ Feeds ss es) {n i : Nat} (hp : (ss n).api i = .stop .swap .restart) :
    ∃ m, n < m ∧ (ss m).api i = .idle ∧ (∀ j, n ≤ j → j < m → ((ss j).api i).life = true) ∧
      ((ss m).stopped = false → ∃ g, (ss n).runs.length ≤ g ∧ (ss m).listener = some g ∧ g ∉ (ss m).closes) := by
  obtain ⟨a, a1, a2, a3, a4⟩ := h.stop_next hp
  obtain ⟨b, b1, b2, b3⟩ := h.wait_next hf (k := .enter) (r := true) a2 a3
  obtain ⟨c, c1, c2, c3, c4⟩ := h.stop_next (b := .restartWait) b2
  obtain ⟨d, d1, d2, d3⟩ := h.start_next (k := .lock) (r := true) (L := (ss n).runs.length) c2 (h.length (by omega)) (.inl rfl)
  rcases d2 with ⟨d2, _⟩ | ⟨d2, d4, _⟩
  · cases d2
  obtain ⟨e, e1, e2, ⟨k, e3⟩, e4, e5, e6⟩ := h.restart_next d2
  have life : ∀ j, n ≤ j → j < e → ((ss j).api i).life = true := by
    intro j j1 j2
    rcases Nat.lt_or_ge j a with h1 | h1
    · obtain ⟨_, hj⟩ := a4 j j1 h1; rw [hj]; rfl
    rcases Nat.lt_or_ge j b with h2 | h2
    · obtain ⟨_, hj⟩ := b3 j h1 h2; rw [hj]; rfl
    rcases Nat.lt_or_ge j c with h3 | h3
    · obtain ⟨_, hj⟩ := c4 j h2 h3; rw [hj]; rfl
    rcases Nat.lt_or_ge j d with h4 | h4
    · obtain ⟨_, hj⟩ := d3 j h3 h4; rw [hj]; rfl
    · obtain ⟨_, hj⟩ := e6 j h4 j2; rw [hj]; rfl
  refine ⟨e, by omega, e2, life, fun hst => ?_⟩
  obtain ⟨e, rfl⟩ : ∃ x, e = x + 1 := ⟨e - 1, by omega⟩
  simp only [Nat.add_sub_cancel] at e3 e4 e5
  have hs : (ss e).stopped = false := by
    cases hx : (ss e).stopped with
    | false => rfl
    | true =>
      have := h.stopped (by rw [e3]; rfl) (by rw [e3]; rfl) hx
      rw [hst] at this; cases this
  obtain ⟨g, r, g1, g2⟩ := h.serving e i (.inr ⟨k, e3⟩) hs
  have hsince : Since (ss n).runs.length (ss e) := h.since (by omega) (h.length (by omega)) d4
  have hcl := (h.inv e).apart.open' hs g r g1 g2
  have hni : r.pc.initializing = false := by
    have h0 := (h.inv e).inv.init
    have : (ss e).runs.countP (·.pc.initializing) = 0 := by omega
    have := List.countP_eq_zero.1 this r (List.mem_of_getElem? g1)
    simpa using this
  have hop : opened r.pc = true := by
    revert hni; generalize r.pc = pc; intro hni
    cases pc <;> first | rfl | cases hni
  have hlis := ((h.inv e).opened g r g1 hop g2).resolve_right hcl
  -- the last step changes neither
  have same : (ss (e + 1)).listener = (ss e).listener ∧ (ss (e + 1)).closes = (ss e).closes := by
    rcases step_by_api (h.step e) e5 with ⟨cc, hn⟩ | ⟨_, _, _, _, hp', _⟩
    · simp only [Sys.apiStep, e3] at hn
      generalize ss (e + 1) = t at hn
      cases k <;> cases hn <;> exact ⟨rfl, rfl⟩
    · rw [e3] at hp'; cases hp'
  exact ⟨g, hsince g r g1 g2, by rw [same.1]; exact hlis, by rw [same.2]; exact hcl⟩

end KM
