import Verif.LifeShape
import Verif.Props.Lifecycle
/-
Property C50: the registry of connections, `km.clients`.
-/
namespace KM.Props
open KM

/-- The accept loop has not yet seen all its connections end (line 110). -/
def _root_.KM.RunPc.attends : RunPc → Bool
  | .storeStarted | .wgDone | .ended => false
  | _ => true

theorem attends_running {pc : RunPc} (h : pc.attends = true) : pc.running = true := by
  cases pc <;> first | rfl | cases h

theorem LoopNext.attends {pc pc' : RunPc} (h : LoopNext pc pc') (h1 : pc.attends = true) (h2 : pc'.attends = false) : pc = .waitActive := by
  cases h <;> first | rfl | (cases h2; done) | (cases h1; done)

/-- Connections are accounted for by an accept loop that still attends to them. -/
def Attended (s : Sys) : Prop := ∀ (c : Nat) (k : ConnG), s.conns[c]? = some k → k.pc.inActive = true → ∃ r, s.runs[k.gen]? = some r ∧ r.pc.attends = true

theorem ConnNext.inActive {pc pc' : ConnPc} (h : ConnNext pc pc') (h' : pc'.inActive = true) : pc.inActive = true := by
  cases h <;> first | rfl | cases h'

/-- At most one accept loop is running. -/
theorem running_unique {s : Sys} (hi : s.Inv) {g g' : Nat} {r r' : RunG} (hg : s.runs[g]? = some r) (hg' : s.runs[g']? = some r')
    (hr : r.pc.running = true) (hr' : r'.pc.running = true) : g = g' := by
  have hle : s.runs.countP (·.pc.running) ≤ 1 := by
    have := hi.started
    split at this <;> omega
  have key : ∀ {l : List RunG} {g g' : Nat}, l.countP (·.pc.running) ≤ 1 → l[g]? = some r → l[g']? = some r' → g = g' := by
    intro l
    induction l with
    | nil => intro g g' _ h; cases h
    | cons a l ih =>
      intro g g' hle h h'
      rw [List.countP_cons] at hle
      have pos : ∀ {x : RunG} {n : Nat}, l[n]? = some x → x.pc.running = true → 0 < l.countP (·.pc.running) := fun h hx =>
        List.countP_pos_iff.2 ⟨_, List.mem_of_getElem? h, hx⟩
      cases g with
      | zero =>
        simp only [List.getElem?_cons_zero, Option.some.injEq] at h
        subst h
        rw [if_pos hr] at hle
        cases g' with
        | zero => rfl
        | succ g' => have := pos h' hr'; omega
      | succ g =>
        have := pos h hr
        cases g' with
        | zero =>
          simp only [List.getElem?_cons_zero, Option.some.injEq] at h'
          subst h'
          rw [if_pos hr'] at hle
          omega
        | succ g' => rw [ih (by omega) h h']
  exact key hle hg hg'

/-- While a caller is in `Start` before line 63, no accept loop runs. -/
theorem starting_alone {s : Sys} (hi : s.Inv) {i : Nat} (ha : (s.api i).starting = 1) {r : RunG} {g : Nat} (hg : s.runs[g]? = some r) :
    r.pc.running = false := by
  have hl : (s.api i).locked = true := by
    revert ha
    generalize s.api i = pc
    intro ha
    cases pc with
    | start k _ => cases k <;> first | rfl | cases ha
    | _ => cases ha
  have hm := (hi.mu (.api i)).1 hl
  have h1 := hi.started
  rw [Sys.ofHolder_of_mu hm, ha] at h1
  cases hr : r.pc.running with
  | false => rfl
  | true =>
    have : 0 < s.runs.countP (·.pc.running) := List.countP_pos_iff.2 ⟨_, List.mem_of_getElem? hg, hr⟩
    split at h1 <;> omega

theorem step_attended {s s' : Sys} {e : SEv} (h : Sys.Step s e s') (hi : s.Inv) (ha : Attended s) : Attended s' := by
  have runs_set : ∀ {g : Nat} {r r' : RunG}, s.runs[g]? = some r → (r.pc.attends = true → r'.pc.attends = true) →
      ∀ {n : Nat}, (∃ x, s.runs[n]? = some x ∧ x.pc.attends = true) → ∃ x, (s.runs.set g r')[n]? = some x ∧ x.pc.attends = true := by
    rintro g r r' hg hk n ⟨x, hx, hx'⟩
    by_cases e : g = n
    · subst e
      rw [hg] at hx; cases hx
      exact ⟨r', List.getElem?_set_self (List.getElem?_eq_some_iff.1 hg).1, hk hx'⟩
    · exact ⟨x, by rw [List.getElem?_set_ne e]; exact hx, hx'⟩
  cases h.shape with
  | quiet hc _ hr =>
    intro c k hk hka
    rw [hc] at hk
    obtain ⟨r, h1, h2⟩ := ha c k hk hka
    rcases hr with hr | hr
    · exact ⟨r, by rw [hr]; exact h1, h2⟩
    · exact ⟨r, by rw [hr, List.getElem?_append_left (List.getElem?_eq_some_iff.1 h1).1]; exact h1, h2⟩
  | reset _ _ _ hc _ hr => intro c k hk hka; rw [hc] at hk; rw [hr]; exact ha c k hk hka
  | loop g r pc hg hn hw hr hc _ =>
    intro c k hk hka
    rw [hc] at hk
    have hk' := ha c k hk hka
    rw [hr]
    by_cases hat : pc.attends = true
    · exact runs_set hg (fun _ => hat) hk'
    · obtain ⟨x, hx, hx'⟩ := hk'
      by_cases e : g = k.gen
      · exfalso
        subst e
        rw [hg] at hx; cases hx
        have hwa := LoopNext.attends hn hx' (by revert hat; cases pc.attends <;> simp)
        have hz := hw hwa
        have e1 := hi.active
        have e2 : 0 < s.conns.countP (·.pc.inActive) := List.countP_pos_iff.2 ⟨k, List.mem_of_getElem? hk, hka⟩
        have e3 : 0 < s.runs.countP (·.pc == .addActive) := by omega
        obtain ⟨r', hr', hp'⟩ := List.countP_pos_iff.1 e3
        obtain ⟨g', hg'⟩ := List.mem_iff_getElem?.1 hr'
        have hp' : r'.pc = .addActive := LawfulBEq.eq_of_beq hp'
        have := running_unique hi hg hg' (by rw [hwa]; rfl) (by rw [hp']; rfl)
        subst this
        rw [hg] at hg'; cases hg'
        rw [hwa] at hp'; cases hp'
      · exact ⟨x, by rw [List.getElem?_set_ne e]; exact hx, hx'⟩
  | register g r hg hp hr hc _ =>
    intro c k hk hka
    rw [hr]
    rw [hc] at hk
    by_cases hlt : c < s.conns.length
    · rw [List.getElem?_append_left hlt] at hk
      exact runs_set (r' := ⟨.addActive, r.cxn + 1⟩) hg (fun _ => rfl) (ha c k hk hka)
    · rw [List.getElem?_append_right (by omega)] at hk
      have : k = ⟨g, r.cxn + 1, s.ctx.getD 0, .body (handle s.sv)⟩ := by
        cases hcn : c - s.conns.length with
        | zero => rw [hcn] at hk; simp only [List.getElem?_cons_zero, Option.some.injEq] at hk; exact hk.symm
        | succ n => rw [hcn] at hk; cases hk
      subst this
      exact ⟨_, List.getElem?_set_self (List.getElem?_eq_some_iff.1 hg).1, rfl⟩
  | conn c k pc hk hn _ hc _ hr =>
    intro c' k' hk' hka
    rw [hr]
    rw [hc] at hk'
    by_cases e : c = c'
    · subst e
      rw [List.getElem?_set_self (List.getElem?_eq_some_iff.1 hk).1] at hk'
      cases hk'
      exact ha c k hk (ConnNext.inActive hn hka)
    · rw [List.getElem?_set_ne e] at hk'; exact ha c' k' hk' hka
  | delete c k r hk hp hg hc _ hr =>
    intro c' k' hk' hka
    rw [hr]
    rw [hc] at hk'
    by_cases e : c = c'
    · subst e
      rw [List.getElem?_set_self (List.getElem?_eq_some_iff.1 hk).1] at hk'
      cases hk'
      exact ha c k hk (by rw [hp]; rfl)
    · rw [List.getElem?_set_ne e] at hk'; exact ha c' k' hk' hka

/-- The connection has not ended: its handler runs, or has ended without having removed the connection from the registry. -/
def live : ConnPc → Bool
  | .body _ | .oc .lock | .oc .delete => true
  | _ => false

theorem live_inActive {pc : ConnPc} (h : live pc = true) : pc.inActive = true := by
  cases pc with
  | oc k => cases k <;> first | rfl | cases h
  | ended => cases h
  | body => rfl

theorem ConnNext.live {pc pc' : ConnPc} (h : ConnNext pc pc') (hd : pc ≠ .oc .delete) : live pc' = live pc := by
  cases h <;> first | rfl | exact absurd rfl hd

/-! ### C50 -/

/-- **C50** is false: the close callback removes the number that the accept loop's variable has at that time, not the number of its connection. -/
theorem C50_false : ¬ ∀ (s : Sys), s.Reachable → ∀ (c : Nat) (k : ConnG), s.conns[c]? = some k →
    ((k.pc matches .ended) → ∀ n, GoMap.get s.clients n ≠ some c) ∧ ((k.pc matches .body _) → ∃ n, GoMap.get s.clients n = some c) := by
  intro h
  have := (h _ (after_reachable twoClients) 0 _ rfl).1 rfl 1
  exact this rfl

/-- Of the two clients, the one that has left is registered and the one that is still there is not. -/
example : (after twoClients).clients = [(1, 0)] ∧ ((after twoClients).conns.map (·.pc matches .ended)) = [true, false] := ⟨rfl, rfl⟩

/-- Whenever a connection is about to be removed from the registry, it is the connection its accept loop accepted last. -/
def LastLeaves (s : Sys) : Prop := ∀ (c : Nat) (k : ConnG), s.conns[c]? = some k → k.pc = .oc .delete →
  ∀ (c' : Nat) (k' : ConnG), s.conns[c']? = some k' → k'.gen = k.gen → c' ≤ c

/-- How connections are numbered. -/
structure Numbered (s : Sys) : Prop where
  /-- within an accept loop, later connections have larger numbers -/
  lt : ∀ (c c' : Nat) (k k' : ConnG), s.conns[c]? = some k → s.conns[c']? = some k' → k.gen = k'.gen → c < c' → k.num < k'.num
  /-- the loop's variable is at least the number of each connection -/
  le : ∀ (c : Nat) (k : ConnG), s.conns[c]? = some k → ∃ r, s.runs[k.gen]? = some r ∧ k.num ≤ r.cxn
  /-- and is the number of the last one -/
  last : ∀ (g : Nat) (r : RunG), s.runs[g]? = some r → 0 < r.cxn → ∃ (c : Nat) (k : ConnG), s.conns[c]? = some k ∧ k.gen = g ∧ k.num = r.cxn
  pos : ∀ (c : Nat) (k : ConnG), s.conns[c]? = some k → 0 < k.num

theorem set_num {l : List ConnG} {c c' : Nat} {k k' : ConnG} {pc : ConnPc} (hk : l[c]? = some k) (h : (l.set c { k with pc := pc })[c']? = some k') :
    ∃ k0, l[c']? = some k0 ∧ k0.gen = k'.gen ∧ k0.num = k'.num ∧ k0.ctx = k'.ctx := by
  by_cases e : c = c'
  · subst e
    rw [List.getElem?_set_self (List.getElem?_eq_some_iff.1 hk).1] at h
    cases h
    exact ⟨k, hk, rfl, rfl, rfl⟩
  · rw [List.getElem?_set_ne e] at h; exact ⟨k', h, rfl, rfl, rfl⟩

theorem num_set {l : List ConnG} {c c' : Nat} {k k0 : ConnG} {pc : ConnPc} (hk : l[c]? = some k) (h : l[c']? = some k0) :
    ∃ k', (l.set c { k with pc := pc })[c']? = some k' ∧ k'.gen = k0.gen ∧ k'.num = k0.num := by
  by_cases e : c = c'
  · subst e
    rw [hk] at h; cases h
    exact ⟨_, List.getElem?_set_self (List.getElem?_eq_some_iff.1 hk).1, rfl, rfl⟩
  · exact ⟨k0, by rw [List.getElem?_set_ne e]; exact h, rfl, rfl⟩

theorem Numbered.conn {s s' : Sys} (h : Numbered s) {c : Nat} {k : ConnG} {pc : ConnPc} (hk : s.conns[c]? = some k)
    (hc : s'.conns = s.conns.set c { k with pc := pc }) (hr : s'.runs = s.runs) : Numbered s' := by
  refine ⟨?_, ?_, ?_, ?_⟩
  · intro a b ka kb ha hb hg hlt
    rw [hc] at ha hb
    obtain ⟨a0, h1, h2, h3, _⟩ := set_num hk ha
    obtain ⟨b0, h4, h5, h6, _⟩ := set_num hk hb
    rw [← h3, ← h6]
    exact h.lt a b a0 b0 h1 h4 (by rw [h2, h5]; exact hg) hlt
  · intro a ka ha
    rw [hc] at ha
    obtain ⟨a0, h1, h2, h3, _⟩ := set_num hk ha
    rw [hr, ← h2, ← h3]
    exact h.le a a0 h1
  · intro g r hg hpos
    rw [hr] at hg
    obtain ⟨a, ka, h1, h2, h3⟩ := h.last g r hg hpos
    obtain ⟨k', h4, h5, h6⟩ := num_set (pc := pc) hk h1
    exact ⟨a, k', by rw [hc]; exact h4, h5.trans h2, h6.trans h3⟩
  · intro a ka ha
    rw [hc] at ha
    obtain ⟨a0, h1, h2, h3, _⟩ := set_num hk ha
    rw [← h3]; exact h.pos a a0 h1

theorem step_numbered {s s' : Sys} {e : SEv} (h : Sys.Step s e s') (hn : Numbered s) : Numbered s' := by
  cases h.shape with
  | quiet hc _ hr =>
    refine ⟨by rw [hc]; exact hn.lt, ?_, ?_, by rw [hc]; exact hn.pos⟩
    · intro c k hk
      rw [hc] at hk
      obtain ⟨r, h1, h2⟩ := hn.le c k hk
      rcases hr with hr | hr
      · exact ⟨r, by rw [hr]; exact h1, h2⟩
      · exact ⟨r, by rw [hr, List.getElem?_append_left (List.getElem?_eq_some_iff.1 h1).1]; exact h1, h2⟩
    · intro g r hg hpos
      rw [hc]
      rcases hr with hr | hr
      · rw [hr] at hg; exact hn.last g r hg hpos
      · rw [hr] at hg
        by_cases hlt : g < s.runs.length
        · rw [List.getElem?_append_left hlt] at hg; exact hn.last g r hg hpos
        · rw [List.getElem?_append_right (by omega)] at hg
          exfalso
          cases hcn : g - s.runs.length with
          | zero => rw [hcn] at hg; cases hg; cases hpos
          | succ n => rw [hcn] at hg; cases hg
  | reset _ _ _ hc _ hr => exact ⟨by rw [hc]; exact hn.lt, by rw [hc, hr]; exact hn.le, by rw [hc, hr]; exact hn.last, by rw [hc]; exact hn.pos⟩
  | loop g r pc hg _ _ hr hc _ =>
    refine ⟨by rw [hc]; exact hn.lt, ?_, ?_, by rw [hc]; exact hn.pos⟩
    · intro c k hk
      rw [hc] at hk
      obtain ⟨r', h1, h2⟩ := hn.le c k hk
      rw [hr]
      by_cases e : g = k.gen
      · subst e
        rw [hg] at h1; cases h1
        exact ⟨_, List.getElem?_set_self (List.getElem?_eq_some_iff.1 hg).1, h2⟩
      · exact ⟨r', by rw [List.getElem?_set_ne e]; exact h1, h2⟩
    · intro g' r' hg' hpos
      rw [hc]
      rw [hr] at hg'
      by_cases e : g = g'
      · subst e
        rw [List.getElem?_set_self (List.getElem?_eq_some_iff.1 hg).1] at hg'
        cases hg'
        exact hn.last g r hg hpos
      · rw [List.getElem?_set_ne e] at hg'; exact hn.last g' r' hg' hpos
  | register g r hg hp hr hc _ =>
    have new : ∀ {c : Nat} {k : ConnG}, s'.conns[c]? = some k → s.conns[c]? = some k ∨ (c = s.conns.length ∧ k.gen = g ∧ k.num = r.cxn + 1) := by
      intro c k hk
      rw [hc] at hk
      by_cases hlt : c < s.conns.length
      · rw [List.getElem?_append_left hlt] at hk; exact .inl hk
      · rw [List.getElem?_append_right (by omega)] at hk
        cases hcn : c - s.conns.length with
        | zero => rw [hcn] at hk; cases hk; exact .inr ⟨by omega, rfl, rfl⟩
        | succ n => rw [hcn] at hk; cases hk
    have old : ∀ {c : Nat} {k : ConnG}, s.conns[c]? = some k → c < s.conns.length := fun h => (List.getElem?_eq_some_iff.1 h).1
    refine ⟨?_, ?_, ?_, ?_⟩
    · intro a b ka kb ha hb hgen hlt
      rcases new ha with ha | ⟨ha, ha1, ha2⟩ <;> rcases new hb with hb | ⟨hb, hb1, hb2⟩
      · exact hn.lt a b ka kb ha hb hgen hlt
      · obtain ⟨r', h1, h2⟩ := hn.le a ka ha
        rw [hgen, hb1, hg] at h1; cases h1
        omega
      · have := old hb; omega
      · omega
    · intro c k hk
      rw [hr]
      rcases new hk with hk | ⟨_, h1, h2⟩
      · obtain ⟨r', h1, h2⟩ := hn.le c k hk
        by_cases e : g = k.gen
        · subst e
          rw [hg] at h1; cases h1
          exact ⟨_, List.getElem?_set_self (List.getElem?_eq_some_iff.1 hg).1, Nat.le_succ_of_le h2⟩
        · exact ⟨r', by rw [List.getElem?_set_ne e]; exact h1, h2⟩
      · subst h1
        exact ⟨_, List.getElem?_set_self (List.getElem?_eq_some_iff.1 hg).1, Nat.le_of_eq h2⟩
    · intro g' r' hg' hpos
      rw [hr] at hg'
      by_cases e : g = g'
      · subst e
        rw [List.getElem?_set_self (List.getElem?_eq_some_iff.1 hg).1] at hg'
        cases hg'
        exact ⟨s.conns.length, ⟨g, r.cxn + 1, s.ctx.getD 0, .body (handle s.sv)⟩, by rw [hc]; simp, rfl, rfl⟩
      · rw [List.getElem?_set_ne e] at hg'
        obtain ⟨a, ka, h1, h2, h3⟩ := hn.last g' r' hg' hpos
        exact ⟨a, ka, by rw [hc, List.getElem?_append_left (old h1)]; exact h1, h2, h3⟩
    · intro c k hk
      rcases new hk with hk | ⟨_, _, h2⟩
      · exact hn.pos c k hk
      · omega
  | conn c k pc hk _ _ hc _ hr => exact hn.conn hk hc hr
  | delete c k r hk _ _ hc _ hr => exact hn.conn hk hc hr

/-- What the registry holds. -/
structure Registry (s : Sys) : Prop where
  keys : (GoMap.keys s.clients).Nodup
  iff : ∀ n c, GoMap.get s.clients n = some c ↔ ∃ k, s.conns[c]? = some k ∧ k.num = n ∧ live k.pc = true

theorem get_erase' {m : List (Nat × Nat)} (h : (GoMap.keys m).Nodup) (k k' : Nat) :
    GoMap.get (GoMap.erase m k) k' = if k = k' then none else GoMap.get m k' := by
  induction m with
  | nil => simp [GoMap.erase]
  | cons p m ih =>
    obtain ⟨a, b⟩ := p
    simp only [GoMap.keys, List.map_cons, List.nodup_cons] at h
    have ih := ih h.2
    simp only [GoMap.erase]
    by_cases e : a = k
    · subst e
      rw [if_pos rfl]
      by_cases e' : a = k'
      · subst e'
        rw [if_pos rfl]
        exact (GoMap.get_none_iff _ _).2 h.1
      · rw [if_neg e']; simp [GoMap.get, e']
    · rw [if_neg e]
      simp only [GoMap.get]
      by_cases e' : a = k'
      · subst e'; rw [if_pos rfl, if_neg (Ne.symm e), if_pos rfl]
      · rw [if_neg e', ih, if_neg e']

theorem keys_erase {m : List (Nat × Nat)} (h : (GoMap.keys m).Nodup) (k : Nat) : (GoMap.keys (GoMap.erase m k)).Nodup := by
  have sub : ∀ m : List (Nat × Nat), (GoMap.keys (GoMap.erase m k)).Sublist (GoMap.keys m) := by
    intro m
    induction m with
    | nil => exact List.Sublist.refl _
    | cons p m ih =>
      obtain ⟨a, b⟩ := p
      simp only [GoMap.erase, GoMap.keys]
      split
      · exact List.sublist_cons_self _ _
      · exact ih.cons_cons _
  exact h.sublist (sub m)

/-- Two live connections have different numbers. -/
theorem live_num {s : Sys} (hi : s.Inv) (ha : Attended s) (hn : Numbered s) {c c' : Nat} {k k' : ConnG} (hk : s.conns[c]? = some k)
    (hk' : s.conns[c']? = some k') (hl : live k.pc = true) (hl' : live k'.pc = true) (he : k.num = k'.num) : c = c' := by
  obtain ⟨r, h1, h2⟩ := ha c k hk (live_inActive hl)
  obtain ⟨r', h3, h4⟩ := ha c' k' hk' (live_inActive hl')
  have hg := running_unique hi h1 h3 (attends_running h2) (attends_running h4)
  rcases Nat.lt_trichotomy c c' with h | h | h
  · have := hn.lt c c' k k' hk hk' hg h; omega
  · exact h
  · have := hn.lt c' c k' k hk' hk hg.symm h; omega

theorem step_registry {s s' : Sys} {e : SEv} (h : Sys.Step s e s') (hi : s.Inv) (ha : Attended s) (hn : Numbered s) (hp : LastLeaves s) (hr : Registry s) :
    Registry s' := by
  cases h.shape with
  | quiet hc hcl _ => exact ⟨by rw [hcl]; exact hr.keys, by rw [hc, hcl]; exact hr.iff⟩
  | reset i r hsi hc hcl _ =>
    refine ⟨by rw [hcl]; exact List.nodup_nil, ?_⟩
    intro n c
    rw [hcl, hc]
    refine ⟨fun h => (by cases h), ?_⟩
    rintro ⟨k, hk, _, hl⟩
    obtain ⟨r, h1, h2⟩ := ha c k hk (live_inActive hl)
    have := starting_alone hi (i := i) (by rw [hsi]; rfl) h1
    rw [attends_running h2] at this
    cases this
  | loop _ _ _ _ _ _ _ hc hcl => exact ⟨by rw [hcl]; exact hr.keys, by rw [hc, hcl]; exact hr.iff⟩
  | register g r hg hpc hrs hc hcl =>
    refine ⟨by rw [hcl]; exact GoMap.nodup_set hr.keys _ _, ?_⟩
    intro n c
    rw [hcl, GoMap.get_set, hc]
    by_cases e : r.cxn + 1 = n
    · rw [if_pos e, Option.some.injEq]
      constructor
      · rintro rfl
        exact ⟨_, List.getElem?_concat_length, e, rfl⟩
      · rintro ⟨k, hk, hnum, hl⟩
        by_cases hlt : c < s.conns.length
        · exfalso
          rw [List.getElem?_append_left hlt] at hk
          obtain ⟨r1, h1, h2⟩ := ha c k hk (live_inActive hl)
          have hgg := running_unique hi h1 hg (attends_running h2) (by rw [hpc]; rfl)
          obtain ⟨r2, h3, h4⟩ := hn.le c k hk
          rw [hgg, hg] at h3; cases h3
          omega
        · rw [List.getElem?_append_right (by omega)] at hk
          cases hcn : c - s.conns.length with
          | zero => omega
          | succ n => rw [hcn] at hk; cases hk
    · rw [if_neg e, hr.iff]
      constructor
      · rintro ⟨k, hk, h1, h2⟩
        exact ⟨k, by rw [List.getElem?_append_left (List.getElem?_eq_some_iff.1 hk).1]; exact hk, h1, h2⟩
      · rintro ⟨k, hk, h1, h2⟩
        by_cases hlt : c < s.conns.length
        · rw [List.getElem?_append_left hlt] at hk; exact ⟨k, hk, h1, h2⟩
        · exfalso
          rw [List.getElem?_append_right (by omega)] at hk
          cases hcn : c - s.conns.length with
          | zero => rw [hcn] at hk; cases hk; exact e h1
          | succ n => rw [hcn] at hk; cases hk
  | conn c k pc hk hnx hd hc hcl _ =>
    refine ⟨by rw [hcl]; exact hr.keys, ?_⟩
    intro n c'
    rw [hcl, hr.iff, hc]
    by_cases e : c = c'
    · subst e
      rw [List.getElem?_set_self (List.getElem?_eq_some_iff.1 hk).1, hk]
      have := ConnNext.live hnx hd
      constructor
      · rintro ⟨k1, h1, h2, h3⟩; cases h1; exact ⟨_, rfl, h2, this.trans h3⟩
      · rintro ⟨k1, h1, h2, h3⟩; cases h1; exact ⟨_, rfl, h2, this.symm.trans h3⟩
    · rw [List.getElem?_set_ne e]
  | delete c k r hk hpc hg hc hcl _ =>
    have hnum : k.num = r.cxn := by
      obtain ⟨r1, h1, h2⟩ := hn.le c k hk
      rw [hg] at h1; cases h1
      have hpos := hn.pos c k hk
      obtain ⟨c1, k1, h3, h4, h5⟩ := hn.last k.gen r hg (by omega)
      have := hp c k hk hpc c1 k1 h3 h4
      rcases Nat.lt_or_eq_of_le this with h | h
      · have := hn.lt c1 c k1 k h3 hk h4 h; omega
      · subst h; rw [hk] at h3; cases h3; exact h5
    refine ⟨by rw [hcl]; exact keys_erase hr.keys _, ?_⟩
    intro n c'
    rw [hcl, get_erase' hr.keys, hc]
    by_cases e : c = c'
    · subst e
      rw [List.getElem?_set_self (List.getElem?_eq_some_iff.1 hk).1]
      constructor
      · intro h
        exfalso
        split at h
        · cases h
        · next hne =>
          obtain ⟨k1, h1, h2, _⟩ := (hr.iff n c).1 h
          rw [hk] at h1; cases h1
          exact hne (hnum.symm.trans h2)
      · rintro ⟨k1, h1, _, h3⟩; cases h1; cases h3
    · rw [List.getElem?_set_ne e]
      constructor
      · intro h
        split at h
        · cases h
        · exact (hr.iff n c').1 h
      · rintro ⟨k1, h1, h2, h3⟩
        rw [if_neg]
        · exact (hr.iff n c').2 ⟨k1, h1, h2, h3⟩
        · intro e'
          exact e (live_num hi ha hn hk h1 (by rw [hpc]; rfl) h3 (by rw [hnum, e', h2]))

/-- **C50**, as long as connections end in an order in which each one is the last its accept loop has accepted (in particular when there is
one connection at a time): the registered connections are exactly those that have not ended, each under its own number.
What is missing is the case of other orders, where it is false. -/
theorem C50_partial {sv : Server} {clock : Int} {tr : List SEv} {s : Sys} (h : RunIn LastLeaves (Sys.new sv clock) tr s) (n c : Nat) :
    GoMap.get s.clients n = some c ↔ ∃ k, s.conns[c]? = some k ∧ k.num = n ∧ live k.pc = true := by
  refine Registry.iff ?_ n c
  have i0 := Sys.inv_new sv clock
  have a0 : Attended (Sys.new sv clock) := fun c k h => by simp [Sys.new] at h
  have n0 : Numbered (Sys.new sv clock) :=
    ⟨fun _ _ _ _ h => by simp [Sys.new] at h, fun _ _ h => by simp [Sys.new] at h, fun _ _ h => by simp [Sys.new] at h, fun _ _ h => by simp [Sys.new] at h⟩
  have r0 : Registry (Sys.new sv clock) := ⟨List.nodup_nil, fun n c => ⟨fun h => (by cases h), fun ⟨k, h, _⟩ => by simp [Sys.new] at h⟩⟩
  generalize Sys.new sv clock = s0 at h i0 a0 n0 r0
  induction h with
  | nil => exact r0
  | cons hp h _ ih => exact ih (h.inv i0) (step_attended h i0 a0) (step_numbered h n0) (step_registry h i0 a0 n0 hp r0)

/-- The states of a schedule satisfy `P`. -/
def playIf (P : Sys → Bool) : List Pick → Sys → Option (List SEv × Sys)
  | [], s => if P s then some ([], s) else none
  | p :: ps, s =>
    if P s then
      match s.pick p with
      | none => none
      | some (e, s1) =>
        match playIf P ps s1 with
        | none => none
        | some (es, s2) => some (e :: es, s2)
    else none

theorem playIf_sound {P : Sys → Bool} {ps : List Pick} {s s' : Sys} {es : List SEv} (h : playIf P ps s = some (es, s')) :
    RunIn (fun s => P s = true) s es s' := by
  induction ps generalizing s es with
  | nil =>
    unfold playIf at h
    split at h <;> cases h
    next hp => exact .nil hp
  | cons p ps ih =>
    unfold playIf at h
    split at h
    · next hp =>
      split at h
      · cases h
      next e s1 h1 =>
      split at h
      · cases h
      next es' s2 h2 =>
      cases h
      exact .cons hp (Sys.pick_sound h1) (ih h2)
    · cases h

theorem RunIn.mono {P Q : Sys → Prop} (hpq : ∀ s, P s → Q s) {s s' : Sys} {tr : List SEv} (h : RunIn P s tr s') : RunIn Q s tr s' := by
  induction h with
  | nil h => exact .nil (hpq _ h)
  | cons hp h _ ih => exact .cons (hpq _ hp) h ih

theorem eq_some_getD {α β : Type _} {o : Option (α × β)} {d : α × β} (h : o.isSome = true) : o = some ((o.getD d).1, (o.getD d).2) := by
  cases o with
  | none => cases h
  | some x => rfl

/-- `LastLeaves`, computed. -/
def lastLeaves (s : Sys) : Bool :=
  (List.range s.conns.length).all fun c =>
    !(s.conns[c]?.any fun k => k.pc matches .oc .delete) ||
    (List.range s.conns.length).all fun c' => c' ≤ c || s.conns[c']?.map (·.gen) != s.conns[c]?.map (·.gen)

theorem lastLeaves_sound (s : Sys) (h : lastLeaves s = true) : LastLeaves s := by
  intro c k hk hp c' k' hk' hg
  have h1 := List.all_eq_true.1 h c (List.mem_range.2 (List.getElem?_eq_some_iff.1 hk).1)
  rw [hk] at h1
  simp only [Option.any_some, hp, Bool.not_true, Bool.false_or] at h1
  have h2 := List.all_eq_true.1 h1 c' (List.mem_range.2 (List.getElem?_eq_some_iff.1 hk').1)
  rw [hk'] at h2
  simpa [hg] using h2

/-- The hypothesis of `C50_partial` holds when two clients connect and the second one leaves:
the first one stays registered. -/
example : ∃ tr s, RunIn LastLeaves (Sys.new ⟨9092, []⟩ 0) tr s ∧ s.clients = [(1, 0)] ∧ s.conns.map (fun k => live k.pc) = [true, false] := by
  let ps := starts 0 ++ opens 0 ++ accepts 0 ++ accepts 0 ++ leaves 1 ++ closesUp 1
  have hp : playIf lastLeaves ps (Sys.new ⟨9092, []⟩ 0) =
    some (((playIf lastLeaves ps (Sys.new ⟨9092, []⟩ 0)).getD ([], Sys.new ⟨9092, []⟩ 0)).1,
      ((playIf lastLeaves ps (Sys.new ⟨9092, []⟩ 0)).getD ([], Sys.new ⟨9092, []⟩ 0)).2) := eq_some_getD (by decide +kernel)
  exact ⟨_, _, (playIf_sound hp).mono lastLeaves_sound, by decide +kernel, by decide +kernel⟩

end KM.Props
