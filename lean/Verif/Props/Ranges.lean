import Verif.Ranges
/-
C100: SyncGroup while topics and partitions are being created.
-/
namespace KM.Ranges

/-- What is there stays there. -/
def Le (ds ds' : Topics) : Prop := ∀ t ps, parts ds t = some ps → ∃ ps', parts ds' t = some ps' ∧ ∀ p ∈ ps, p ∈ ps'

theorem Le.refl (ds : Topics) : Le ds ds := fun _ ps h => ⟨ps, h, fun _ => id⟩

theorem Le.trans {a b c : Topics} (h : Le a b) (h' : Le b c) : Le a c := fun t ps e => by
  obtain ⟨ps', e', k⟩ := h t ps e
  obtain ⟨ps'', e'', k'⟩ := h' t ps' e'
  exact ⟨ps'', e'', fun p hp => k' p (k p hp)⟩

theorem parts_append {ds : Topics} {t0 : Bytes} (t : Bytes) :
    parts (ds ++ [(t0, [])]) t = match parts ds t with | some ps => some ps | none => if t0 = t then some [] else none := by
  unfold parts
  rw [List.find?_append]
  cases e : ds.find? fun e => e.1 = t with
  | some x => simp
  | none => by_cases h : t0 = t <;> simp [h]

theorem parts_addPart (ds : Topics) (t0 : Bytes) (p : I32) (t : Bytes) : parts (addPart ds t0 p) t = if t = t0 then (parts ds t).map (· ++ [p]) else parts ds t := by
  unfold parts addPart
  induction ds with
  | nil => simp
  | cons e ds ih =>
    simp only [List.map_cons, List.find?_cons]
    by_cases h : e.1 = t0
    · by_cases h' : e.1 = t
      · simp [h', ← h]
      · have : ¬ t0 = t := fun c => h' (h.trans c)
        simp only [h, if_true, this, decide_false, ih]
    · by_cases h' : e.1 = t
      · have : ¬ t = t0 := fun c => h (h'.trans c)
        simp [h', this]
      · simp only [h, if_false, h', decide_false, ih]

theorem le_append (ds : Topics) (t0 : Bytes) : Le ds (ds ++ [(t0, [])]) := fun t ps h => ⟨ps, by rw [parts_append, h], fun _ => id⟩

theorem le_addPart (ds : Topics) (t0 : Bytes) (p : I32) : Le ds (addPart ds t0 p) := fun t ps h => by
  rw [parts_addPart, h]
  split
  · exact ⟨ps ++ [p], rfl, fun q hq => List.mem_append_left _ hq⟩
  · exact ⟨ps, rfl, fun _ => id⟩

theorem parts_mem {ds : Topics} {t : Bytes} {ps : List I32} (h : parts ds t = some ps) : (t, ps) ∈ ds := by
  unfold parts at h
  cases e : ds.find? fun e => e.1 = t with
  | none => simp [e] at h
  | some x =>
    simp [e] at h
    have h1 := List.mem_of_find?_eq_some e
    have h2 := List.find?_some e
    simp at h2
    rw [← h, ← h2]; exact h1

theorem parts_none {ds : Topics} {t : Bytes} (h : parts ds t = none) : t ∉ ds.map (·.1) := by
  unfold parts at h
  simp only [Option.map_eq_none_iff, List.find?_eq_none, decide_eq_true_eq] at h
  intro c
  obtain ⟨x, hx, e⟩ := List.mem_map.mp c
  exact h x hx e

theorem parts_of_mem {ds : Topics} (nd : (ds.map (·.1)).Nodup) {e : Bytes × List I32} (h : e ∈ ds) : parts ds e.1 = some e.2 := by
  induction ds with
  | nil => cases h
  | cons x ds ih =>
    rw [List.map_cons, List.nodup_cons] at nd
    rcases List.mem_cons.mp h with rfl | h
    · simp [parts]
    · have : x.1 ≠ e.1 := fun c => nd.1 (c ▸ List.mem_map.mpr ⟨e, h, rfl⟩)
      have := ih nd.2 h
      unfold parts at this ⊢
      rw [List.find?_cons]; simp [*]

/-- The goroutine has `ds.mu`. -/
def PC.holds : PC → Bool
  | .look .. | .store .. | .storing .. | .found .. => true
  | _ => false

/-- The topic whose mutex the goroutine has. -/
def PC.holdsP : PC → Option Bytes
  | .lookPart _ t _ | .storePart t _ | .storingPart t _ | .foundPart t => some t
  | _ => none

/-- What has been assigned so far. -/
structure Ok (ds began done : Topics) : Prop where
  once : (done.map (·.1)).Nodup
  partsOnce : ∀ e ∈ done, e.2.Nodup
  exist : ∀ e ∈ done, ∃ ps, parts ds e.1 = some ps ∧ ∀ p ∈ e.2, p ∈ ps
  all : ∀ e ∈ done, ∀ ps, parts began e.1 = some ps → ∀ p ∈ ps, p ∈ e.2
  since : Le began ds

theorem Ok.mono {ds ds' began done : Topics} (h : Ok ds began done) (l : Le ds ds') : Ok ds' began done :=
  ⟨h.once, h.partsOnce, fun e he => by
    obtain ⟨ps, h1, h2⟩ := h.exist e he
    obtain ⟨ps', h3, h4⟩ := l _ _ h1
    exact ⟨ps', h3, fun p hp => h4 p (h2 p hp)⟩, h.all, h.since.trans l⟩

/-- What holds of a goroutine that is here. -/
def Local (ds : Topics) : PC → Prop
  | .store t _ | .storing t _ => parts ds t = none
  | .found _ there t _ => there = true → ∃ ps, parts ds t = some ps
  | .startPart _ t _ | .lookPart _ t _ => ∃ ps, parts ds t = some ps
  | .storePart t p | .storingPart t p => ∃ ps, parts ds t = some ps ∧ p ∉ ps
  | .topics began done => Ok ds began done
  | .partitions began done t beganP doneP => Ok ds began done ∧ t ∉ done.map (·.1) ∧ doneP.Nodup ∧ (∃ ps, parts ds t = some ps ∧ ∀ p ∈ doneP, p ∈ ps) ∧
      ∀ ps, parts began t = some ps → ∀ p ∈ ps, p ∈ beganP
  | .assigned began done => Ok ds began done ∧ ∀ e ∈ began, e.1 ∈ done.map (·.1)
  | _ => True

structure Inv (s : State) : Prop where
  held : ∀ n, (s.pc n).holds = true → s.mutex = some n
  heldP : ∀ n t, (s.pc n).holdsP = some t → s.mutexP t = some n
  mark : s.mark = true → ∃ n t p, s.pc n = .storing t p
  markP : ∀ t, s.markP t = true → ∃ n p, s.pc n = .storingPart t p
  once : (s.ds.map (·.1)).Nodup
  partsOnce : ∀ e ∈ s.ds, e.2.Nodup
  here : ∀ n, Local s.ds (s.pc n)

theorem Inv.new : Inv .new := ⟨nofun, nofun, nofun, nofun, .nil, nofun, fun _ => trivial⟩

@[simp] theorem goto_self (s : State) (t : Nat) (c : PC) : (s.goto t c).pc t = c := by simp [State.goto]
theorem goto_ne (s : State) {t u : Nat} (c : PC) (h : u ≠ t) : (s.goto t c).pc u = s.pc u := by simp [State.goto, h]

/-- One goroutine is somewhere else, and the mutexes are as they must be. -/
theorem Inv.goto {s : State} (h : Inv s) {n : Nat} {c : PC} {m : Option Nat} {mp : Bytes → Option Nat} {d : Bool}
    (hm : c.holds = true → m = some n) (hm' : ∀ u, u ≠ n → (s.pc u).holds = true → m = some u)
    (hp : ∀ t, c.holdsP = some t → mp t = some n) (hp' : ∀ u t, u ≠ n → (s.pc u).holdsP = some t → mp t = some u)
    (hs : ∀ t p, s.pc n ≠ .storing t p) (hs' : ∀ t p, s.pc n ≠ .storingPart t p) (hl : Local s.ds c) :
    Inv { s.goto n c with mutex := m, mutexP := mp, dead := d } where
  held u hu := by
    by_cases e : u = n
    · subst e; simp only [State.goto, if_true] at hu; exact hm hu
    · simp only [State.goto, e, if_false] at hu; exact hm' u e hu
  heldP u t hu := by
    by_cases e : u = n
    · subst e; simp only [State.goto, if_true] at hu; exact hp t hu
    · simp only [State.goto, e, if_false] at hu; exact hp' u t e hu
  mark hk := by
    obtain ⟨u, t, p, e⟩ := h.mark hk
    refine ⟨u, t, p, ?_⟩
    have : u ≠ n := fun c => hs t p (c ▸ e)
    simp only [State.goto, this, if_false, e]
  markP t hk := by
    obtain ⟨u, p, e⟩ := h.markP t hk
    refine ⟨u, p, ?_⟩
    have : u ≠ n := fun c => hs' t p (c ▸ e)
    simp only [State.goto, this, if_false, e]
  once := h.once
  partsOnce := h.partsOnce
  here u := by
    by_cases e : u = n
    · subst e; simp only [State.goto, if_true]; exact hl
    · simp only [State.goto, e, if_false]; exact h.here u

theorem Inv.others {s : State} (h : Inv s) {n u : Nat} (hn : (s.pc n).holds = true) (e : u ≠ n) : (s.pc u).holds = false := by
  cases c : (s.pc u).holds
  · rfl
  · have := h.held u c; rw [h.held n hn] at this; exact absurd (Option.some.inj this).symm e

theorem Inv.othersP {s : State} (h : Inv s) {n u : Nat} {t : Bytes} (hn : (s.pc n).holdsP = some t) (e : u ≠ n) : (s.pc u).holdsP ≠ some t := fun c => by
  have := h.heldP u t c; rw [h.heldP n t hn] at this; exact absurd (Option.some.inj this).symm e

/-- A step of a goroutine that has no mutex afterwards that it did not have before, and stores nothing. -/
theorem Inv.move {s : State} (h : Inv s) {n : Nat} {c : PC} (hm : c.holds = true → (s.pc n).holds = true) (hp : ∀ t, c.holdsP = some t → (s.pc n).holdsP = some t)
    (hs : ∀ t p, s.pc n ≠ .storing t p) (hs' : ∀ t p, s.pc n ≠ .storingPart t p) (hl : Local s.ds c) : Inv (s.goto n c) :=
  h.goto (m := s.mutex) (mp := s.mutexP) (d := s.dead) (fun k => h.held n (hm k)) (fun u _ k => h.held u k) (fun t k => h.heldP n t (hp t k)) (fun u t _ k => h.heldP u t k) hs hs' hl

theorem Inv.killed {s : State} (h : Inv s) : Inv { s with dead := true } := ⟨h.held, h.heldP, h.mark, h.markP, h.once, h.partsOnce, h.here⟩

theorem unless_cases {s s' : State} {m : Bool} {x : Option State} (h : s.unless m x = some s') : (m = true ∧ s' = { s with dead := true }) ∨ (m = false ∧ x = some s') := by
  cases m
  · exact .inr ⟨rfl, h⟩
  · exact .inl ⟨rfl, (Option.some.inj h).symm⟩

theorem Inv.unless {s s' : State} (h : Inv s) {m : Bool} {x : Option State} (hs : s.unless m x = some s') (h' : x = some s' → Inv s') : Inv s' := by
  rcases unless_cases hs with ⟨_, rfl⟩ | ⟨_, e⟩
  · exact h.killed
  · exact h' e

theorem Local.append {ds : Topics} {t0 : Bytes} {c : PC} (h : Local ds c) (hc : c.holds = false) : Local (ds ++ [(t0, [])]) c := by
  have l := le_append ds t0
  have keep : ∀ {t ps}, parts ds t = some ps → parts (ds ++ [(t0, [])]) t = some ps := fun h => by rw [parts_append, h]
  cases c <;> simp only [PC.holds, Bool.false_eq_true, reduceCtorEq] at hc <;> first
    | trivial
    | exact (Ok.mono h l)
    | exact ⟨h.1.mono l, h.2⟩
    | (obtain ⟨ps, h⟩ := h; exact ⟨ps, keep h⟩)
    | (obtain ⟨ps, h, h'⟩ := h; exact ⟨ps, keep h, h'⟩)
    | (obtain ⟨a, b, c, ⟨ps, d, e⟩, f⟩ := h; exact ⟨a.mono l, b, c, ⟨ps, keep d, e⟩, f⟩)

theorem Local.addPart {ds : Topics} {t0 : Bytes} {p0 : I32} {c : PC} (h : Local ds c) (hc : c.holdsP ≠ some t0) : Local (addPart ds t0 p0) c := by
  have l := le_addPart ds t0 p0
  have keep : ∀ {t ps}, t ≠ t0 → parts ds t = some ps → parts (KM.Ranges.addPart ds t0 p0) t = some ps := fun e h => by rw [parts_addPart, if_neg e, h]
  have has : ∀ {t}, (∃ ps, parts ds t = some ps) → ∃ ps, parts (KM.Ranges.addPart ds t0 p0) t = some ps := fun ⟨ps, h⟩ => by
    obtain ⟨ps', h', _⟩ := l _ _ h; exact ⟨ps', h'⟩
  have non : ∀ {t}, parts ds t = none → parts (KM.Ranges.addPart ds t0 p0) t = none := fun h => by rw [parts_addPart, h]; split <;> rfl
  cases c with
  | store t p => exact non h
  | storing t p => exact non h
  | found m th t p => exact fun e => has (h e)
  | startPart m t p => exact has h
  | lookPart m t p => exact has h
  | storePart t p => obtain ⟨ps, h, h'⟩ := h; exact ⟨ps, keep (fun c => hc (by rw [c]; rfl)) h, h'⟩
  | storingPart t p => obtain ⟨ps, h, h'⟩ := h; exact ⟨ps, keep (fun c => hc (by rw [c]; rfl)) h, h'⟩
  | topics b d => exact Ok.mono h l
  | partitions b d t bp dp =>
    obtain ⟨a, b, c, ⟨ps, d, e⟩, f⟩ := h
    obtain ⟨ps', d', k⟩ := l _ _ d
    exact ⟨a.mono l, b, c, ⟨ps', d', fun p hp => k p (e p hp)⟩, f⟩
  | assigned b d => exact ⟨h.1.mono l, h.2⟩
  | _ => trivial

theorem Inv.step {s s' : State} (h : Inv s) {n : Nat} {pick : Option Nat} (hs : s.step n pick = some s') : Inv s' := by
  have hl := h.here n
  have nst : ∀ {c : PC}, s.pc n = c → (∀ t p, c ≠ .storing t p) → ∀ t p, s.pc n ≠ .storing t p := fun e k t p => by rw [e]; exact k t p
  have nsp : ∀ {c : PC}, s.pc n = c → (∀ t p, c ≠ .storingPart t p) → ∀ t p, s.pc n ≠ .storingPart t p := fun e k t p => by rw [e]; exact k t p
  cases e : s.pc n with
  | idle => simp [State.step, e] at hs
  | start make t p =>
    simp only [State.step, e] at hs
    split at hs <;> simp at hs
    rename_i hm
    subst hs
    refine h.goto (mp := s.mutexP) (d := s.dead) (fun _ => rfl) (fun u _ k => ?_) nofun (fun u t _ k => h.heldP u t k) (nst e nofun) (nsp e nofun) trivial
    have := h.held u k; rw [hm] at this; cases this
  | look make t p =>
    simp only [State.step, e] at hs
    refine h.unless hs fun hs => ?_
    split at hs
    · rename_i ps hp
      cases hs
      exact h.move (by rw [e]; exact id) nofun (nst e nofun) (nsp e nofun) fun _ => ⟨ps, hp⟩
    · rename_i hp
      split at hs <;> cases hs
      · exact h.move (by rw [e]; exact id) nofun (nst e nofun) (nsp e nofun) hp
      · exact h.move (by rw [e]; exact id) nofun (nst e nofun) (nsp e nofun) nofun
  | store t p =>
    rw [e] at hl
    simp only [State.step, e] at hs
    refine h.unless hs fun hs => ?_
    cases hs
    have hx : Inv (s.goto n (.storing t p)) := h.move (by rw [e]; exact id) nofun (nst e nofun) (nsp e nofun) hl
    exact ⟨hx.held, hx.heldP, fun _ => ⟨n, t, p, goto_self _ _ _⟩, hx.markP, hx.once, hx.partsOnce, hx.here⟩
  | storing t p =>
    rw [e] at hl
    simp [State.step, e] at hs; subst hs
    have hh : (s.pc n).holds = true := by rw [e]; rfl
    refine ⟨fun u hu => ?_, fun u q hu => ?_, nofun, fun q hq => ?_, ?_, ?_, fun u => ?_⟩
    · by_cases eu : u = n
      · subst eu; exact h.held u hh
      · simp only [State.goto, eu, if_false] at hu; exact h.held u hu
    · by_cases eu : u = n
      · subst eu; simp only [State.goto, if_true] at hu; cases hu
      · simp only [State.goto, eu, if_false] at hu; exact h.heldP u q hu
    · obtain ⟨u, p', k⟩ := h.markP q hq
      refine ⟨u, p', ?_⟩
      have : u ≠ n := fun c => by subst c; rw [e] at k; cases k
      simp only [State.goto, this, if_false, k]
    · show ((s.ds ++ [(t, [])]).map fun e : Bytes × List I32 => e.1).Nodup
      rw [List.map_append, List.nodup_append]
      refine ⟨h.once, by simp, fun a ha b hb => ?_⟩
      simp at hb; subst hb
      exact fun c => parts_none hl (c ▸ ha)
    · intro x hx
      rcases List.mem_append.mp hx with hx | hx
      · exact h.partsOnce x hx
      · simp at hx; subst hx; exact .nil
    · by_cases eu : u = n
      · subst eu; simp only [State.goto, if_true]
        exact fun _ => ⟨[], by rw [parts_append]; have : parts s.ds t = none := hl; simp [this]⟩
      · simp only [State.goto, eu, if_false]; exact Local.append (h.here u) (h.others hh eu)
  | found make there t p =>
    rw [e] at hl
    have hh : (s.pc n).holds = true := by rw [e]; rfl
    simp [State.step, e] at hs; subst hs
    refine h.goto (mp := s.mutexP) (d := s.dead) (fun k => ?_) (fun u eu k => ?_) (fun q k => ?_) (fun u t _ k => h.heldP u t k) (nst e nofun) (nsp e nofun) ?_
    · split at k <;> cases k
    · rw [h.others hh eu] at k; cases k
    · split at k <;> cases k
    · split
      · rename_i ht; exact hl ht
      · trivial
  | startPart make t p =>
    rw [e] at hl
    simp only [State.step, e] at hs
    split at hs <;> simp at hs
    rename_i hm
    subst hs
    refine h.goto (m := s.mutex) (d := s.dead) nofun (fun u _ k => h.held u k) (fun q k => ?_) (fun u q eu k => ?_) (nst e nofun) (nsp e nofun) hl
    · cases k; simp [put]
    · by_cases eq : q = t
      · subst eq; have := h.heldP u q k; rw [hm] at this; cases this
      · simp only [put, eq, if_false]; exact h.heldP u q k
  | lookPart make t p =>
    rw [e] at hl
    obtain ⟨ps, hl⟩ := hl
    simp only [State.step, e] at hs
    refine h.unless hs fun hs => ?_
    split at hs
    · cases hs; exact h.move nofun (by rw [e]; exact fun _ => id) (nst e nofun) (nsp e nofun) trivial
    · rename_i hp
      split at hs <;> cases hs
      · refine h.move nofun (by rw [e]; exact fun _ => id) (nst e nofun) (nsp e nofun) ⟨ps, hl, ?_⟩
        simpa [hl] using hp
      · exact h.move nofun (by rw [e]; exact fun _ => id) (nst e nofun) (nsp e nofun) trivial
  | storePart t p =>
    rw [e] at hl
    simp only [State.step, e] at hs
    refine h.unless hs fun hs => ?_
    cases hs
    have hx : Inv (s.goto n (.storingPart t p)) := h.move nofun (by rw [e]; exact fun _ => id) (nst e nofun) (nsp e nofun) hl
    refine ⟨hx.held, hx.heldP, hx.mark, fun q hq => ?_, hx.once, hx.partsOnce, hx.here⟩
    by_cases eq : q = t
    · subst eq; exact ⟨n, p, goto_self _ _ _⟩
    · simp only [put, eq, if_false] at hq; exact hx.markP q hq
  | storingPart t p =>
    rw [e] at hl
    obtain ⟨ps, hl, hp⟩ := hl
    simp [State.step, e] at hs; subst hs
    have hh : (s.pc n).holdsP = some t := by rw [e]; rfl
    refine ⟨fun u hu => ?_, fun u q hu => ?_, fun hk => ?_, fun q hq => ?_, ?_, ?_, fun u => ?_⟩
    · by_cases eu : u = n
      · subst eu; simp only [State.goto, if_true] at hu; cases hu
      · simp only [State.goto, eu, if_false] at hu; exact h.held u hu
    · by_cases eu : u = n
      · subst eu; simp only [State.goto, if_true] at hu; cases hu; exact h.heldP u t hh
      · simp only [State.goto, eu, if_false] at hu; exact h.heldP u q hu
    · obtain ⟨u, t', p', k⟩ := h.mark hk
      refine ⟨u, t', p', ?_⟩
      have : u ≠ n := fun c => by subst c; rw [e] at k; cases k
      simp only [State.goto, this, if_false, k]
    · by_cases eq : q = t
      · simp [put, eq] at hq
      · simp only [put, eq, if_false] at hq
        obtain ⟨u, p', k⟩ := h.markP q hq
        refine ⟨u, p', ?_⟩
        have : u ≠ n := fun c => by subst c; rw [e] at k; cases k; exact eq rfl
        simp only [State.goto, this, if_false, k]
    · show ((addPart s.ds t p).map (·.1)).Nodup
      have : (addPart s.ds t p).map (·.1) = s.ds.map (·.1) := by
        unfold addPart; rw [List.map_map]; refine List.map_congr_left fun x _ => ?_
        simp only [Function.comp]; split <;> rfl
      rw [this]; exact h.once
    · intro x hx
      obtain ⟨y, hy, rfl⟩ := List.mem_map.mp hx
      split
      · rename_i ey
        have : parts s.ds y.1 = some y.2 := parts_of_mem h.once hy
        rw [ey, hl] at this
        cases this
        rw [List.nodup_append]
        exact ⟨h.partsOnce _ hy, by simp, fun a ha b hb => by simp at hb; subst hb; exact fun c => hp (c ▸ ha)⟩
      · exact h.partsOnce _ hy
    · by_cases eu : u = n
      · subst eu; simp only [State.goto, if_true]; trivial
      · simp only [State.goto, eu, if_false]; exact Local.addPart (h.here u) (h.othersP hh eu)
  | foundPart t =>
    have hh : (s.pc n).holdsP = some t := by rw [e]; rfl
    simp [State.step, e] at hs; subst hs
    refine h.goto (m := s.mutex) (d := s.dead) nofun (fun u _ k => h.held u k) nofun (fun u q eu k => ?_) (nst e nofun) (nsp e nofun) trivial
    have : q ≠ t := fun c => h.othersP hh eu (c ▸ k)
    simp only [put, this, if_false]; exact h.heldP u q k
  | sync =>
    simp [State.step, e] at hs; subst hs
    exact h.move nofun nofun (nst e nofun) (nsp e nofun) ⟨.nil, nofun, nofun, nofun, .refl _⟩
  | topics began done =>
    rw [e] at hl
    have hl : Ok s.ds began done := hl
    simp only [State.step, e] at hs
    split at hs
    · split at hs
      · cases hs
      · rename_i i t ps hi
        split at hs
        · cases hs
        rename_i hd
        refine h.unless hs fun hs => ?_
        cases hs
        have hp : parts s.ds t = some ps := parts_of_mem h.once (List.mem_of_getElem? hi)
        refine h.move nofun nofun (nst e nofun) (nsp e nofun) ⟨hl, hd, .nil, ⟨ps, hp, nofun⟩, fun qs hq => ?_⟩
        obtain ⟨ps', h1, h2⟩ := hl.since _ _ hq
        rw [hp] at h1; cases h1; exact h2
    · split at hs
      case isFalse => cases hs
      rename_i hd
      refine h.unless hs fun hs => ?_
      cases hs
      exact h.move nofun nofun (nst e nofun) (nsp e nofun) ⟨hl, fun x hx => of_decide_eq_true (List.all_eq_true.mp hd x hx)⟩
  | partitions began done t beganP doneP =>
    rw [e] at hl
    obtain ⟨hl, ht, nd, ⟨ps, hp, hps⟩, hb⟩ := hl
    simp only [State.step, e] at hs
    split at hs
    · split at hs
      · cases hs
      · rename_i i p hi
        split at hs
        · cases hs
        rename_i hd
        refine h.unless hs fun hs => ?_
        cases hs
        refine h.move nofun nofun (nst e nofun) (nsp e nofun) ⟨hl, ht, ?_, ⟨ps, hp, fun q hq => ?_⟩, hb⟩
        · rw [List.nodup_append]
          exact ⟨nd, by simp, fun a ha b hb => by simp at hb; subst hb; exact fun c => hd (c ▸ ha)⟩
        · rcases List.mem_append.mp hq with hq | hq
          · exact hps q hq
          · simp at hq; subst hq
            rw [hp] at hi; exact List.mem_of_getElem? hi
    · split at hs
      case isFalse => cases hs
      rename_i hd
      refine h.unless hs fun hs => ?_
      cases hs
      refine h.move nofun nofun (nst e nofun) (nsp e nofun) ⟨?_, fun x hx => ?_, fun x hx => ?_, fun x hx => ?_, hl.since⟩
      · rw [List.map_append, List.nodup_append]
        exact ⟨hl.once, by simp, fun a ha b hb => by simp at hb; subst hb; exact fun c => ht (c ▸ ha)⟩
      · rcases List.mem_append.mp hx with hx | hx
        · exact hl.partsOnce x hx
        · simp at hx; subst hx; exact nd
      · rcases List.mem_append.mp hx with hx | hx
        · exact hl.exist x hx
        · simp at hx; subst hx; exact ⟨ps, hp, hps⟩
      · rcases List.mem_append.mp hx with hx | hx
        · exact hl.all x hx
        · simp at hx; subst hx; exact fun qs hq p hp => of_decide_eq_true (List.all_eq_true.mp hd p (hb qs hq p hp))
  | assigned began done =>
    simp [State.step, e] at hs; subst hs
    exact h.move nofun nofun (nst e nofun) (nsp e nofun) trivial

theorem Inv.next {s s' : State} (h : Inv s) {m : Move} (hs : s.next m = some s') : Inv s' := by
  cases m with
  | begin n j =>
    simp only [State.next] at hs
    split at hs
    · cases hs
    split at hs <;> simp at hs
    rename_i e
    subst hs
    cases j <;> exact h.move nofun nofun (fun t p => by rw [e]; nofun) (fun t p => by rw [e]; nofun) trivial
  | go n pick =>
    simp only [State.next] at hs
    split at hs
    · cases hs
    exact h.step hs

theorem Inv.play : ∀ {ms : List Move} {s s' : State}, Inv s → State.play ms s = some s' → Inv s'
  | [], s, s', h, hp => by simp [State.play] at hp; exact hp ▸ h
  | m :: ms, s, s', h, hp => by
    simp only [State.play] at hp
    split at hp
    · cases hp
    · rename_i s1 e; exact (h.next e).play hp

/-- Whose fault it is that the process has ended. -/
def Blame (s : State) : Prop := s.dead = true → ∃ n, (s.mark = true ∧ ∃ b d, s.pc n = .topics b d) ∨ ∃ b d t bp dp, s.pc n = .partitions b d t bp dp ∧ s.markP t = true

theorem Inv.unmarked {s : State} (h : Inv s) {n : Nat} (hn : (s.pc n).holds = true) (hs : ∀ t p, s.pc n ≠ .storing t p) : s.mark = false := by
  cases e : s.mark
  · rfl
  · obtain ⟨u, t, p, k⟩ := h.mark e
    have : u ≠ n := fun c => hs t p (c ▸ k)
    have := h.others hn this
    rw [k] at this; cases this

theorem Inv.unmarkedP {s : State} (h : Inv s) {n : Nat} {t : Bytes} (hn : (s.pc n).holdsP = some t) (hs : ∀ t p, s.pc n ≠ .storingPart t p) : s.markP t = false := by
  cases e : s.markP t
  · rfl
  · obtain ⟨u, p, k⟩ := h.markP t e
    have : u ≠ n := fun c => hs t p (c ▸ k)
    have := h.othersP hn this
    rw [k] at this; exact absurd rfl this

theorem Blame.step {s s' : State} (h : Inv s) (alive : s.dead = false) {n : Nat} {pick : Option Nat} (hs : s.step n pick = some s') : Blame s' := by
  intro hd
  have same : s.dead = true → ∃ n, (s'.mark = true ∧ ∃ b d, s'.pc n = .topics b d) ∨ ∃ b d t bp dp, s'.pc n = .partitions b d t bp dp ∧ s'.markP t = true := fun c => by rw [alive] at c; cases c
  cases e : s.pc n with
  | idle => simp [State.step, e] at hs
  | look make t p =>
    simp only [State.step, e] at hs
    rcases unless_cases hs with ⟨c, _⟩ | ⟨_, hs⟩
    · rw [h.unmarked (n := n) (by rw [e]; rfl) (by rw [e]; nofun)] at c; cases c
    split at hs
    · cases hs; exact same hd
    · split at hs <;> cases hs <;> exact same hd
  | store t p =>
    simp only [State.step, e] at hs
    rcases unless_cases hs with ⟨c, _⟩ | ⟨_, hs⟩
    · rw [h.unmarked (n := n) (by rw [e]; rfl) (by rw [e]; nofun)] at c; cases c
    cases hs; exact same hd
  | lookPart make t p =>
    simp only [State.step, e] at hs
    rcases unless_cases hs with ⟨c, _⟩ | ⟨_, hs⟩
    · rw [h.unmarkedP (n := n) (t := t) (by rw [e]; rfl) (by rw [e]; nofun)] at c; cases c
    split at hs
    · cases hs; exact same hd
    · split at hs <;> cases hs <;> exact same hd
  | storePart t p =>
    simp only [State.step, e] at hs
    rcases unless_cases hs with ⟨c, _⟩ | ⟨_, hs⟩
    · rw [h.unmarkedP (n := n) (t := t) (by rw [e]; rfl) (by rw [e]; nofun)] at c; cases c
    cases hs; exact same hd
  | topics began done =>
    simp only [State.step, e] at hs
    have key : ∀ c, s.unless s.mark (some (s.goto n c)) = some s' → ∃ n, (s'.mark = true ∧ ∃ b d, s'.pc n = .topics b d) ∨ ∃ b d t bp dp, s'.pc n = .partitions b d t bp dp ∧ s'.markP t = true := by
      intro c hc
      rcases unless_cases hc with ⟨h1, rfl⟩ | ⟨_, hc⟩
      · exact ⟨n, .inl ⟨h1, began, done, e⟩⟩
      · cases hc; exact same hd
    split at hs
    · split at hs
      · cases hs
      · split at hs
        · cases hs
        · exact key _ hs
    · split at hs
      · exact key _ hs
      · cases hs
  | partitions began done t beganP doneP =>
    simp only [State.step, e] at hs
    have key : ∀ c, s.unless (s.markP t) (some (s.goto n c)) = some s' → ∃ n, (s'.mark = true ∧ ∃ b d, s'.pc n = .topics b d) ∨ ∃ b d t bp dp, s'.pc n = .partitions b d t bp dp ∧ s'.markP t = true := by
      intro c hc
      rcases unless_cases hc with ⟨h1, rfl⟩ | ⟨_, hc⟩
      · exact ⟨n, .inr ⟨began, done, t, beganP, doneP, e, h1⟩⟩
      · cases hc; exact same hd
    split at hs
    · split at hs
      · cases hs
      · split at hs
        · cases hs
        · exact key _ hs
    · split at hs
      · exact key _ hs
      · cases hs
  | start make t p => simp only [State.step, e] at hs; split at hs <;> simp at hs; subst hs; exact absurd hd (by rw [show ({ s.goto n _ with mutex := _ } : State).dead = s.dead from rfl, alive]; nofun)
  | startPart make t p => simp only [State.step, e] at hs; split at hs <;> simp at hs; subst hs; exact absurd hd (by rw [show ({ s.goto n _ with mutexP := _ } : State).dead = s.dead from rfl, alive]; nofun)
  | _ =>
    simp only [State.step, e, Option.some.injEq] at hs
    subst hs
    have hd : s.dead = true := hd
    rw [alive] at hd; cases hd

theorem Blame.play : ∀ {ms : List Move} {s s' : State}, Inv s → Blame s → State.play ms s = some s' → Blame s'
  | [], s, s', _, h, hp => by simp [State.play] at hp; exact hp ▸ h
  | m :: ms, s, s', hi, h, hp => by
    simp only [State.play] at hp
    split at hp
    · cases hp
    · rename_i s1 e
      refine Blame.play (hi.next e) ?_ hp
      cases m with
      | begin n j =>
        simp only [State.next] at e
        split at e
        · cases e
        · rename_i ha
          split at e <;> simp at e
          subst e
          exact fun c => absurd c ha
      | go n pick =>
        simp only [State.next] at e
        split at e
        · cases e
        · rename_i ha; exact Blame.step hi (by simpa using ha) e

/-- The goroutine is not in SyncGroup. -/
def PC.other : PC → Bool
  | .sync | .topics .. | .partitions .. | .assigned .. => false
  | _ => true

theorem other_step {s s' : State} (h : ∀ n, (s.pc n).other = true) {m : Move} (hm : ∀ n, m ≠ .begin n .sync) (hs : s.next m = some s') : ∀ n, (s'.pc n).other = true := by
  have go : ∀ n c, c.other = true → ∀ u, ((s.goto n c).pc u).other = true := by
    intro n c hc u
    by_cases e : u = n
    · subst e; simpa using hc
    · rw [goto_ne _ _ e]; exact h u
  have un : ∀ {b x}, s.unless b x = some s' → (x = some s' → ∀ u, (s'.pc u).other = true) → ∀ u, (s'.pc u).other = true := by
    intro b x hx k
    rcases unless_cases hx with ⟨_, rfl⟩ | ⟨_, e⟩
    · exact h
    · exact k e
  cases m with
  | begin n j =>
    simp only [State.next] at hs
    split at hs
    · cases hs
    split at hs <;> simp at hs
    subst hs
    cases j
    · exact go _ _ rfl
    · exact go _ _ rfl
    · exact absurd rfl (hm n)
  | go n pick =>
    simp only [State.next] at hs
    split at hs
    · cases hs
    have hn := h n
    cases e : s.pc n with
    | idle => simp [State.step, e] at hs
    | start make t p => simp only [State.step, e] at hs; split at hs <;> simp at hs; subst hs; exact go _ _ rfl
    | startPart make t p => simp only [State.step, e] at hs; split at hs <;> simp at hs; subst hs; exact go _ _ rfl
    | look make t p =>
      simp only [State.step, e] at hs
      refine un hs fun hs => ?_
      split at hs
      · cases hs; exact go _ _ rfl
      · split at hs <;> cases hs <;> exact go _ _ rfl
    | lookPart make t p =>
      simp only [State.step, e] at hs
      refine un hs fun hs => ?_
      split at hs
      · cases hs; exact go _ _ rfl
      · split at hs <;> cases hs <;> exact go _ _ rfl
    | store t p => simp only [State.step, e] at hs; exact un hs fun hs => by cases hs; exact go _ _ rfl
    | storePart t p => simp only [State.step, e] at hs; exact un hs fun hs => by cases hs; exact go _ _ rfl
    | storing t p => simp only [State.step, e, Option.some.injEq] at hs; subst hs; exact go _ _ rfl
    | storingPart t p => simp only [State.step, e, Option.some.injEq] at hs; subst hs; exact go _ _ rfl
    | found make there t p => simp only [State.step, e, Option.some.injEq] at hs; subst hs; exact go _ _ (by cases there <;> rfl)
    | foundPart t => simp only [State.step, e, Option.some.injEq] at hs; subst hs; exact go _ _ rfl
    | sync => rw [e] at hn; cases hn
    | topics b d => rw [e] at hn; cases hn
    | partitions b d t bp dp => rw [e] at hn; cases hn
    | assigned b d => rw [e] at hn; cases hn

theorem other_play : ∀ {ms : List Move} {s s' : State}, (∀ n, (s.pc n).other = true) → (∀ n, .begin n .sync ∉ ms) → State.play ms s = some s' → ∀ n, (s'.pc n).other = true
  | [], s, s', h, _, hp => by simp [State.play] at hp; exact hp ▸ h
  | m :: ms, s, s', h, hm, hp => by
    simp only [State.play] at hp
    split at hp
    · cases hp
    · rename_i s1 e
      exact other_play (other_step h (fun n c => hm n (c ▸ List.mem_cons_self)) e) (fun n c => hm n (List.mem_cons_of_mem _ c)) hp

end KM.Ranges

namespace KM.Ranges

/-- What there was when the `range` began that this goroutine is in. -/
def PC.began : PC → Option Topics
  | .topics b _ | .partitions b _ _ _ _ | .assigned b _ => some b
  | _ => none

/-- After the moves `ms`, each goroutine that is in a `range` began it at a step among `ms`, and has begun no other job since. -/
def Since (ms : List Move) (s : State) : Prop := ∀ n b, (s.pc n).began = some b →
  ∃ ms1 pick ms2 s1, ms = ms1 ++ .go n pick :: ms2 ∧ State.play ms1 .new = some s1 ∧ s1.pc n = .sync ∧ s1.ds = b ∧ ∀ j, .begin n j ∉ ms2

theorem began_next {s s' : State} {m : Move} (hs : s.next m = some s') {n : Nat} {b : Topics} (h : (s'.pc n).began = some b) :
    (s.pc n = .sync ∧ s.ds = b ∧ ∃ pick, m = .go n pick) ∨ ((s.pc n).began = some b ∧ ∀ j, m ≠ .begin n j) := by
  cases m with
  | begin n' j =>
    simp only [State.next] at hs
    split at hs
    · cases hs
    split at hs <;> simp at hs
    subst hs
    by_cases e : n = n'
    · subst e; rw [goto_self] at h; cases j <;> cases h
    · rw [goto_ne _ _ e] at h; exact .inr ⟨h, fun j' c => by cases c; exact e rfl⟩
  | go n' pick =>
    simp only [State.next] at hs
    split at hs
    · cases hs
    by_cases e : n = n'
    · subst e
      have un : ∀ {k x}, s.unless k x = some s' → (s.pc n).began = some b ∨ x = some s' := by
        intro k x hx
        rcases unless_cases hx with ⟨_, rfl⟩ | ⟨_, e⟩
        · exact .inl h
        · exact .inr e
      cases e : s.pc n with
      | idle => simp [State.step, e] at hs
      | sync =>
        simp only [State.step, e, Option.some.injEq] at hs
        subst hs
        rw [goto_self] at h
        cases h
        exact .inl ⟨rfl, rfl, pick, rfl⟩
      | topics b' d =>
        refine .inr ⟨?_, nofun⟩
        simp only [State.step, e] at hs
        have : (s.pc n).began = some b' := by rw [e]; rfl
        split at hs
        · split at hs
          · cases hs
          · split at hs
            · cases hs
            rcases un hs with c | c
            · rw [e] at c; exact c
            · cases c; rw [goto_self] at h; exact h
        · split at hs
          case isFalse => cases hs
          rcases un hs with c | c
          · rw [e] at c; exact c
          · cases c; rw [goto_self] at h; exact h
      | partitions b' d t bp dp =>
        refine .inr ⟨?_, nofun⟩
        simp only [State.step, e] at hs
        split at hs
        · split at hs
          · cases hs
          · split at hs
            · cases hs
            rcases un hs with c | c
            · rw [e] at c; exact c
            · cases c; rw [goto_self] at h; exact h
        · split at hs
          case isFalse => cases hs
          rcases un hs with c | c
          · rw [e] at c; exact c
          · cases c; rw [goto_self] at h; exact h
      | assigned b' d => simp only [State.step, e, Option.some.injEq] at hs; subst hs; rw [goto_self] at h; cases h
      | start make t p => simp only [State.step, e] at hs; split at hs <;> simp at hs; subst hs; simp [State.goto, PC.began] at h
      | startPart make t p => simp only [State.step, e] at hs; split at hs <;> simp at hs; subst hs; simp [State.goto, PC.began] at h
      | look make t p =>
        simp only [State.step, e] at hs
        rcases un hs with c | c
        · rw [e] at c; cases c
        split at c
        · cases c; simp [State.goto, PC.began] at h
        · split at c <;> cases c <;> simp [State.goto, PC.began] at h
      | lookPart make t p =>
        simp only [State.step, e] at hs
        rcases un hs with c | c
        · rw [e] at c; cases c
        split at c
        · cases c; simp [State.goto, PC.began] at h
        · split at c <;> cases c <;> simp [State.goto, PC.began] at h
      | store t p =>
        simp only [State.step, e] at hs
        rcases un hs with c | c
        · rw [e] at c; cases c
        · cases c; simp [State.goto, PC.began] at h
      | storePart t p =>
        simp only [State.step, e] at hs
        rcases un hs with c | c
        · rw [e] at c; cases c
        · cases c; simp [State.goto, PC.began] at h
      | found make there t p => simp only [State.step, e, Option.some.injEq] at hs; subst hs; cases there <;> simp [State.goto, PC.began] at h
      | _ => simp only [State.step, e, Option.some.injEq] at hs; subst hs; simp [State.goto, PC.began] at h
    · refine .inr ⟨?_, nofun⟩
      have : s'.pc n = s.pc n := by
        have go : ∀ c, (s.goto n' c).pc n = s.pc n := fun c => goto_ne _ _ e
        have un : ∀ {k x}, s.unless k x = some s' → (x = some s' → s'.pc n = s.pc n) → s'.pc n = s.pc n := fun hx k => by
          rcases unless_cases hx with ⟨_, rfl⟩ | ⟨_, e⟩
          · rfl
          · exact k e
        cases e' : s.pc n' with
        | idle => simp [State.step, e'] at hs
        | start make t p => simp only [State.step, e'] at hs; split at hs <;> simp at hs; subst hs; exact go _
        | startPart make t p => simp only [State.step, e'] at hs; split at hs <;> simp at hs; subst hs; exact go _
        | look make t p =>
          simp only [State.step, e'] at hs
          refine un hs fun hs => ?_
          split at hs
          · cases hs; exact go _
          · split at hs <;> cases hs <;> exact go _
        | lookPart make t p =>
          simp only [State.step, e'] at hs
          refine un hs fun hs => ?_
          split at hs
          · cases hs; exact go _
          · split at hs <;> cases hs <;> exact go _
        | store t p => simp only [State.step, e'] at hs; exact un hs fun hs => by cases hs; exact go _
        | storePart t p => simp only [State.step, e'] at hs; exact un hs fun hs => by cases hs; exact go _
        | topics b' d =>
          simp only [State.step, e'] at hs
          split at hs
          · split at hs
            · cases hs
            · split at hs
              · cases hs
              exact un hs fun hs => by cases hs; exact go _
          · split at hs
            case isFalse => cases hs
            exact un hs fun hs => by cases hs; exact go _
        | partitions b' d t bp dp =>
          simp only [State.step, e'] at hs
          split at hs
          · split at hs
            · cases hs
            · split at hs
              · cases hs
              exact un hs fun hs => by cases hs; exact go _
          · split at hs
            case isFalse => cases hs
            exact un hs fun hs => by cases hs; exact go _
        | _ => simp only [State.step, e', Option.some.injEq] at hs; subst hs; exact go _
      rwa [this] at h

theorem play_append : ∀ {ms ms' : List Move} {s s1 : State}, State.play ms s = some s1 → State.play (ms ++ ms') s = State.play ms' s1
  | [], ms', s, s1, h => by simp [State.play] at h; subst h; rfl
  | m :: ms, ms', s, s1, h => by
    simp only [List.cons_append, State.play] at h ⊢
    cases e : s.next m with
    | none => simp [e] at h
    | some s2 => simp only [e] at h; exact play_append h

theorem Since.play : ∀ {ms ms0 : List Move} {s s' : State}, State.play ms0 .new = some s → Since ms0 s → State.play ms s = some s' → Since (ms0 ++ ms) s'
  | [], ms0, s, s', _, h, hp => by simp [State.play] at hp; subst hp; simpa using h
  | m :: ms, ms0, s, s', h0, h, hp => by
    simp only [State.play] at hp
    split at hp
    · cases hp
    · rename_i s1 e
      have h1 : State.play (ms0 ++ [m]) .new = some s1 := by rw [play_append h0]; simp [State.play, e]
      suffices k : Since (ms0 ++ [m]) s1 by
        have := Since.play (ms0 := ms0 ++ [m]) h1 k hp
        rwa [List.append_assoc] at this
      · intro n b hb
        rcases began_next e hb with ⟨a, c, pick, rfl⟩ | ⟨a, c⟩
        · exact ⟨ms0, pick, [], s, rfl, h0, a, c, nofun⟩
        · obtain ⟨ms1, pick, ms2, s2, k1, k2, k3, k4, k5⟩ := h n b a
          refine ⟨ms1, pick, ms2 ++ [m], s2, by rw [k1]; simp, k2, k3, k4, fun j hj => ?_⟩
          rcases List.mem_append.mp hj with hj | hj
          · exact k5 j hj
          · exact c j (List.mem_singleton.mp hj).symm

end KM.Ranges

namespace KM.Props
open KM.Ranges

/-- An assignment made between `began` and `ended`: every topic and partition that was there at the beginning, once each, and none that is not there at the end. -/
structure Between (began ended done : Topics) : Prop where
  once : (done.map (·.1)).Nodup
  partsOnce : ∀ e ∈ done, e.2.Nodup
  every : ∀ e ∈ began, ∃ ps, (e.1, ps) ∈ done ∧ ∀ p ∈ e.2, p ∈ ps
  exist : ∀ e ∈ done, ∃ ps, (e.1, ps) ∈ ended ∧ ∀ p ∈ e.2, p ∈ ps

/-- If nothing is created meanwhile, it is exactly what there is. -/
theorem Between.exact {ds done : Topics} (once : (ds.map (·.1)).Nodup) (partsOnce : ∀ e ∈ ds, e.2.Nodup) (h : Between ds ds done) :
    (done.map (·.1)).Perm (ds.map (·.1)) ∧ ∀ e ∈ done, ∃ ps, (e.1, ps) ∈ ds ∧ e.2.Perm ps := by
  refine ⟨(List.perm_ext_iff_of_nodup h.once once).mpr fun t => ⟨fun ht => ?_, fun ht => ?_⟩, fun e he => ?_⟩
  · obtain ⟨e, he, rfl⟩ := List.mem_map.mp ht
    obtain ⟨ps, h1, _⟩ := h.exist e he
    exact List.mem_map.mpr ⟨_, h1, rfl⟩
  · obtain ⟨e, he, rfl⟩ := List.mem_map.mp ht
    obtain ⟨ps, h1, _⟩ := h.every e he
    exact List.mem_map.mpr ⟨_, h1, rfl⟩
  · obtain ⟨ps, h1, h2⟩ := h.exist e he
    obtain ⟨qs, h3, h4⟩ := h.every _ h1
    have e1 := parts_of_mem h.once he
    have e2 := parts_of_mem h.once h3
    rw [e1] at e2
    cases e2
    exact ⟨ps, h1, (List.perm_ext_iff_of_nodup (h.partsOnce e he) (partsOnce _ h1)).mpr fun p => ⟨h2 p, h4 p⟩⟩

/-- A SyncGroup that ends has assigned every topic and partition that was there when it began, once each, and none that is not there now; whatever other goroutines look up and create
meanwhile, and other SyncGroups. It began with the step
between `ms1` and `ms2`. If nothing has been created since, it has assigned exactly what there is. -/
theorem C100_assigned {ms : List Move} {s : State} (h : State.play ms .new = some s) {n : Nat} {began done : Topics} (hn : s.pc n = .assigned began done) :
    ∃ ms1 pick ms2 s1, ms = ms1 ++ .go n pick :: ms2 ∧ State.play ms1 .new = some s1 ∧ s1.pc n = .sync ∧ (∀ j, .begin n j ∉ ms2) ∧ Between s1.ds s.ds done ∧
      (s1.ds = s.ds → (done.map (·.1)).Perm (s.ds.map (·.1)) ∧ ∀ e ∈ done, ∃ ps, (e.1, ps) ∈ s.ds ∧ e.2.Perm ps) := by
  obtain ⟨ms1, pick, ms2, s1, h1, h2, h3, rfl, h4⟩ := Since.play (ms0 := []) rfl (fun _ _ c => by cases c) h n began (by rw [hn]; rfl)
  suffices bt : Between s1.ds s.ds done from
    ⟨ms1, pick, ms2, s1, h1, h2, h3, h4, bt, fun e => Between.exact (Inv.new.play h).once (Inv.new.play h).partsOnce (by rw [e] at bt; exact bt)⟩
  have inv := (Inv.new.play h).here n
  have once1 := (Inv.new.play h2).once
  rw [hn] at inv
  obtain ⟨ok, all⟩ := inv
  refine ⟨ok.once, ok.partsOnce, fun e he => ?_, fun e he => ?_⟩
  · obtain ⟨x, hx, ex⟩ := List.mem_map.mp (all e he)
    refine ⟨x.2, by rw [← ex]; exact hx, ?_⟩
    exact ok.all x hx e.2 (by rw [ex]; exact parts_of_mem once1 he)
  · obtain ⟨ps, h1, h2⟩ := ok.exist e he
    exact ⟨ps, parts_mem h1, h2⟩

/-- The runtime ends the process only when a SyncGroup is at a step of a `range` over a map into which another goroutine is storing a new topic or partition. -/
theorem C100_blame {ms : List Move} {s : State} (h : State.play ms .new = some s) (hd : s.dead = true) :
    ∃ n m, ((∃ b d, s.pc n = .topics b d) ∧ ∃ t p, s.pc m = .storing t p) ∨ ∃ t, (∃ b d bp dp, s.pc n = .partitions b d t bp dp) ∧ ∃ p, s.pc m = .storingPart t p := by
  have inv := Inv.new.play h
  obtain ⟨n, ⟨hm, hb⟩ | ⟨b, d, t, bp, dp, hb, hm⟩⟩ := Blame.play Inv.new (fun c => by cases c) h hd
  · obtain ⟨m, t, p, k⟩ := inv.mark hm
    exact ⟨n, m, .inl ⟨hb, t, p, k⟩⟩
  · obtain ⟨m, p, k⟩ := inv.markP t hm
    exact ⟨n, m, .inr ⟨t, ⟨b, d, bp, dp, hb⟩, p, k⟩⟩

/-- C100, for goroutines that only create and look up, in any number: the runtime does not end the process. -/
theorem C100_alive_partial {ms : List Move} {s : State} (h : State.play ms .new = some s) (hm : ∀ n, .begin n .sync ∉ ms) : s.dead = false := by
  cases hd : s.dead
  · rfl
  · have ho := other_play (s := .new) (fun _ => rfl) hm h
    obtain ⟨n, m, ⟨⟨b, d, k⟩, _⟩ | ⟨t, ⟨b, d, bp, dp, k⟩, _⟩⟩ := C100_blame h hd
    · have := ho n; rw [k] at this; cases this
    · have := ho n; rw [k] at this; cases this

/-- C100 fails: a SyncGroup at the same time as the first post to a topic. -/
theorem C100_false : ∃ (ms : List Move) (s : State), State.play ms .new = some s ∧ s.dead = true :=
  ⟨[.begin 0 .sync, .go 0 none, .begin 1 (.make [97] 0), .go 1 none, .go 1 none, .go 1 none, .go 0 none], _, rfl, rfl⟩

/-- SyncGroup (of goroutine 0) begins when there is no topic; goroutine 1 creates topic b, and then goroutine 2 topic c; SyncGroup meets c, and not b. -/
def skipping : List Move :=
  [.begin 0 .sync, .go 0 none, .begin 1 (.make [98] 0), .go 1 none, .go 1 none, .go 1 none, .go 1 none, .go 1 none,
   .begin 2 (.make [99] 0), .go 2 none, .go 2 none, .go 2 none, .go 2 none, .go 0 (some 1), .go 0 none, .go 0 none]

/-- What it assigns is not what there was at any moment: c is there, and b, which was created before c, is not. -/
theorem C100_moment_false : ∃ s, State.play skipping .new = some s ∧ s.dead = false ∧ s.pc 0 = .assigned [] [([99], [])] ∧ s.ds = [([98], []), ([99], [])] := by
  have h : (State.play skipping .new).map (fun s => (s.dead, s.pc 0, s.ds)) = some (false, .assigned [] [([99], [])], [([98], []), ([99], [])]) := by decide +kernel
  obtain ⟨s, hs, e⟩ := Option.map_eq_some_iff.mp h
  simp only [Prod.mk.injEq] at e
  exact ⟨s, hs, e⟩

/-- A case of `C100_assigned`: nothing is created while SyncGroup is at it, and another goroutine looks a partition up. -/
def growing : List Move :=
  .begin 1 (.make [98] 0) :: (List.replicate 10 (.go 1 none) ++ [.begin 0 .sync, .go 0 none, .go 0 (some 0), .begin 2 (.find [98] 0), .go 2 none, .go 0 (some 0), .go 0 none, .go 0 none])

example : (State.play growing .new).map (fun s => (s.dead, s.pc 0, s.ds)) = some (false, .assigned [([98], [0])] [([98], [0])], [([98], [0])]) := by decide +kernel

/-- Creations and look-ups at the same time. -/
example : (State.play ([.begin 0 (.make [97] 0), .begin 1 (.make [97] 0), .begin 2 (.find [97] 0), .go 0 none, .go 0 none, .go 0 none, .go 0 none, .go 0 none, .go 1 none, .go 0 none,
    .go 1 none, .go 0 none, .go 1 none, .go 0 none, .go 0 none, .go 0 none] ++ List.replicate 4 (.go 2 none)) .new).map (fun s => (s.dead, s.ds)) = some (false, [([97], [0])]) := by decide +kernel

end KM.Props
