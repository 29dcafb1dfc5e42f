import Verif.Words
/-
C99: what is read of a partition's log, seen at the level of memory words.
-/
namespace KM.Words

/-- The goroutine has the mutex of the partition. -/
def PC.holds : PC → Bool
  | .append _ | .storing .. | .posted | .fetchLen _ | .fetchAt _ | .fetched .. => true
  | _ => false

/-- The goroutine is storing. -/
def PC.stores : PC → Bool
  | .storing .. => true
  | _ => false

/-- The first `n` elements of the array have been written. -/
def State.written (s : State) (p n : Nat) : Prop := ∀ j < n, ∃ x, (s.block p)[j]? = some (some x)

/-- `kp.Records` is the log. -/
structure State.Whole (s : State) : Prop where
  len : s.hdr.len = s.log.length
  room : s.hdr.len ≤ s.hdr.cap
  cap : (s.block s.hdr.ptr).length = s.hdr.cap
  written : s.written s.hdr.ptr s.hdr.len

/-- What holds while the record `r` is being stored at `i`. -/
structure State.Half (s : State) (r : Record) (h : Header) (i : Nat) (todo : List Word) : Prop where
  idx : h.len = i + 1
  len : h.len = s.log.length
  last : s.log[i]? = some r
  room : h.len ≤ h.cap
  cap : (s.block h.ptr).length = h.cap
  before : s.written h.ptr i
  elem : .elem ∉ todo → s.written h.ptr h.len
  ptr : .ptr ∉ todo → s.hdr.ptr = h.ptr
  cap' : .cap ∉ todo → s.hdr.cap = h.cap
  len' : .len ∉ todo → s.hdr.len = h.len
  old : .len ∈ todo → s.hdr.len = i
  alloc : h.ptr < s.fresh

/-- What holds of a goroutine that is here. -/
def Local (K : Order) (s : State) : PC → Prop
  | .storing r h i todo => s.Half r h i todo ∧ ∃ done, K.stores = done ++ todo
  | .fetchAt i => i < s.hdr.len
  | .fetched i x => x = match s.log[i]? with | some r => .record r | none => .missing
  | .listAt i => i < s.hdr.len
  | .haveLen i n => i < n ∧ n ≤ s.hdr.len
  | .havePtr i _ => i < s.hdr.len
  | .listed i x => x ≠ .range ∧ ∀ r, x = .record r → s.log[i]? = some r
  | _ => True

structure Inv (K : Order) (s : State) : Prop where
  held : ∀ t, (s.pc t).holds = true → s.mutex = some t
  entry : ∀ (b i : Nat) (x : Record), (s.block b)[i]? = some (some x) → s.log[i]? = some x
  unborn : ∀ b, s.fresh ≤ b → s.block b = []
  whole : (∀ t, (s.pc t).stores = false) → s.Whole
  alloc : s.hdr.ptr < s.fresh
  bound : s.hdr.len ≤ s.log.length
  here : ∀ t, Local K s (s.pc t)

theorem Inv.new (K : Order) : Inv K State.new where
  held := fun _ h => by simp [State.new, PC.holds] at h
  entry := fun _ _ _ h => by simp [State.new] at h
  unborn := fun _ _ => rfl
  whole := fun _ => ⟨rfl, Nat.le_refl _, rfl, fun _ h => by simp [State.new] at h⟩
  alloc := by decide
  bound := Nat.le_refl _
  here := fun _ => trivial

@[simp] theorem goto_self (s : State) (t : Nat) (c : PC) : (s.goto t c).pc t = c := by simp [State.goto]
theorem goto_ne (s : State) {t u : Nat} (c : PC) (h : u ≠ t) : (s.goto t c).pc u = s.pc u := by simp [State.goto, h]

theorem PC.stores_holds : ∀ {c : PC}, c.stores = true → c.holds = true
  | .storing .., _ => rfl

/-- A goroutine that does not have the mutex only relies on the length, which grows, and on the log, which grows. -/
theorem Local.stable {K : Order} {s s' : State} {c : PC} (hc : c.holds = false) (h : Local K s c) (hl : s.hdr.len ≤ s'.hdr.len)
    (hg : ∀ (i : Nat) (r : Record), s.log[i]? = some r → s'.log[i]? = some r) : Local K s' c := by
  cases c <;> simp_all only [PC.holds, Local, Bool.false_eq_true, reduceCtorEq, and_true, not_false_eq_true, true_and] <;> try omega
  · exact ⟨h.1, fun r e => hg _ _ (h.2 r e)⟩

theorem State.Whole.same {s s' : State} (h : s.Whole) (e1 : s'.block = s.block) (e2 : s'.hdr = s.hdr) (e3 : s'.log = s.log) : s'.Whole := by
  obtain ⟨b, f, hd, m, p, l⟩ := s
  obtain ⟨b', f', hd', m', p', l'⟩ := s'
  simp only at e1 e2 e3
  subst e1 e2 e3
  exact ⟨h.1, h.2, h.3, h.4⟩

theorem Local.same {K : Order} {s s' : State} {c : PC} (h : Local K s c) (e1 : s'.block = s.block) (e2 : s'.hdr = s.hdr) (e3 : s'.log = s.log) (e4 : s'.fresh = s.fresh) : Local K s' c := by
  obtain ⟨b, f, hd, m, p, l⟩ := s
  obtain ⟨b', f', hd', m', p', l'⟩ := s'
  simp only at e1 e2 e3 e4
  subst e1 e2 e3 e4
  cases c <;> first | exact h | skip
  obtain ⟨a, b⟩ := h
  exact ⟨⟨a.1, a.2, a.3, a.4, a.5, a.6, a.7, a.8, a.9, a.10, a.11, a.12⟩, b⟩

theorem lt_of_some {α : Type} {l : List α} {j : Nat} {x : α} (h : l[j]? = some x) : j < l.length := (List.getElem?_eq_some_iff.mp h).1

/-- A step that only moves the goroutine on and may let go of the mutex. -/
theorem Inv.goto {K : Order} {s : State} (h : Inv K s) (t : Nat) (c : PC) (hh : c.holds = true → s.mutex = some t) (hw : c.stores = false)
    (hs : (s.pc t).stores = true → s.Whole) (hl : Local K s c) : Inv K (s.goto t c) where
  held u hu := by
    by_cases e : u = t
    · subst e; simp at hu; exact hh hu
    · rw [goto_ne _ _ e] at hu; exact h.held u hu
  entry := h.entry
  unborn := h.unborn
  whole hn := by
    by_cases e : (s.pc t).stores = true
    · exact (hs e).same rfl rfl rfl
    · refine (h.whole fun u => ?_).same rfl rfl rfl
      by_cases eu : u = t
      · subst eu; simpa using e
      · have := hn u; rwa [goto_ne _ _ eu] at this
  alloc := h.alloc
  bound := h.bound
  here u := by
    by_cases e : u = t
    · subst e; rw [goto_self]; exact hl.same rfl rfl rfl rfl
    · rw [goto_ne _ _ e]; exact Local.same (h.here u) rfl rfl rfl rfl

/-- The mutex changes hands. -/
theorem Inv.mutex {K : Order} {s : State} (h : Inv K s) (m : Option Nat) (hm : ∀ t, (s.pc t).holds = true → m = some t) : Inv K { s with mutex := m } where
  held := hm
  entry := h.entry
  unborn := h.unborn
  whole hn := (h.whole hn).same rfl rfl rfl
  alloc := h.alloc
  bound := h.bound
  here u := Local.same (h.here u) rfl rfl rfl rfl

theorem Inv.others {K : Order} {s : State} (h : Inv K s) {t : Nat} (ht : (s.pc t).holds = true) {u : Nat} (hu : u ≠ t) : (s.pc u).holds = false := by
  cases e : (s.pc u).holds
  · rfl
  · have := h.held u e
    rw [h.held t ht] at this
    exact absurd (Option.some.inj this).symm hu

theorem Inv.quiet {K : Order} {s : State} (h : Inv K s) {t : Nat} (ht : (s.pc t).holds = true) (hs : (s.pc t).stores = false) : s.Whole := by
  refine h.whole fun u => ?_
  by_cases e : u = t
  · subst e; exact hs
  · have := h.others ht e
    cases e' : (s.pc u).stores
    · rfl
    · rw [PC.stores_holds e'] at this; cases this

theorem Inv.lock {K : Order} {s s' : State} (h : Inv K s) {t : Nat} {c : PC} (hl : Local K s c) (hc : c.stores = false) (hp : (s.pc t).stores = false) (e : s.lock t c = some s') : Inv K s' := by
  unfold State.lock at e
  split at e <;> simp at e
  rename_i hm
  subst e
  have free : ∀ u, (s.pc u).holds = false := by
    intro u
    cases e : (s.pc u).holds
    · rfl
    · have := h.held u e
      rw [hm] at this; cases this
  have h1 : Inv K { s with mutex := some t } := h.mutex _ fun u hu => by rw [free u] at hu; cases hu
  refine h1.goto t c (fun _ => rfl) hc ?_ ?_
  · intro e; exact absurd e (by simp [hp])
  · exact hl.same rfl rfl rfl rfl

theorem Inv.unlock {K : Order} {s : State} (h : Inv K s) {t : Nat} (ht : (s.pc t).holds = true) (hs : (s.pc t).stores = false) : Inv K { s.goto t .idle with mutex := none } := by
  have h1 : Inv K (s.goto t .idle) := h.goto t .idle (by simp [PC.holds]) rfl (by simp [hs]) trivial
  refine h1.mutex none fun u hu => ?_
  by_cases e : u = t
  · subst e; simp [PC.holds] at hu
  · rw [goto_ne _ _ e, h.others ht e] at hu; cases hu

theorem take_written {l : List (Option Record)} {n j : Nat} (h : ∃ x, l[j]? = some (some x)) (hj : j < n) (m : List (Option Record)) : ∃ x, (l.take n ++ m)[j]? = some (some x) := by
  obtain ⟨x, hx⟩ := h
  have hl : j < l.length := lt_of_some hx
  refine ⟨x, ?_⟩
  rw [List.getElem?_append_left (by simp; omega), List.getElem?_take, if_pos hj, hx]

theorem Inv.append {K : Order} {s s' : State} (h : Inv K s) {t room : Nat} {r : Record} (e : s.pc t = .append r) (hs : s.step K t room = some s') : Inv K s' := by
  have hh : (s.pc t).holds = true := by rw [e]; rfl
  have w := h.quiet hh (by rw [e]; rfl)
  have hm := h.held t hh
  have grow : ∀ (i : Nat) (x : Record), s.log[i]? = some x → (s.log ++ [r])[i]? = some x := by
    intro i x hx
    have : i < s.log.length := lt_of_some hx
    rw [List.getElem?_append_left this, hx]
  have mem : ∀ w : Word, w ∈ K.stores := fun w => K.each.mem_iff.mpr (by cases w <;> decide)
  simp only [State.step, e] at hs
  split at hs <;> simp at hs <;> subst hs
  · rename_i hr
    refine ⟨?_, ?_, h.unborn, ?_, h.alloc, ?_, ?_⟩
    · intro u hu
      by_cases eu : u = t
      · subst eu; exact hm
      · simp only [State.goto, eu, if_false] at hu; exact h.held u hu
    · intro b i x hx; exact grow i x (h.entry b i x hx)
    · intro hn; have := hn t; simp [State.goto, PC.stores] at this
    · show s.hdr.len ≤ (s.log ++ [r]).length; have := h.bound; simp; omega
    · intro u
      by_cases eu : u = t
      · subst eu
        simp only [State.goto, if_true]
        refine ⟨⟨rfl, by simp [w.len], ?_, hr, w.cap, w.written, fun c => absurd (mem _) c, fun c => absurd (mem _) c, fun c => absurd (mem _) c,
          fun c => absurd (mem _) c, fun _ => rfl, h.alloc⟩, [], rfl⟩
        show (s.log ++ [r])[s.hdr.len]? = some r
        rw [w.len]; simp
      · simp only [State.goto, eu, if_false]
        exact Local.stable (h.others hh eu) (h.here u) (Nat.le_refl _) grow
  · rename_i hr
    have full : s.hdr.len = s.hdr.cap := by have := w.room; omega
    refine ⟨?_, ?_, ?_, ?_, ?_, ?_, ?_⟩
    · intro u hu
      by_cases eu : u = t
      · subst eu; exact hm
      · simp only [State.goto, eu, if_false] at hu; exact h.held u hu
    · intro b i x hx
      refine grow i x ?_
      dsimp only at hx
      split at hx
      · rw [List.getElem?_append] at hx
        split at hx
        · rw [List.getElem?_take] at hx
          split at hx
          · exact h.entry _ i x hx
          · cases hx
        · rw [List.getElem?_replicate] at hx
          split at hx <;> simp at hx
      · exact h.entry b i x hx
    · intro b hb
      have : b ≠ s.fresh := by simp at hb; omega
      simp only [this, if_false]
      exact h.unborn b (by simp at hb; omega)
    · intro hn; have := hn t; simp [State.goto, PC.stores] at this
    · have := h.alloc; show s.hdr.ptr < s.fresh + 1; omega
    · show s.hdr.len ≤ (s.log ++ [r]).length; have := h.bound; simp; omega
    · intro u
      by_cases eu : u = t
      · subst eu
        simp only [State.goto, if_true]
        refine ⟨⟨rfl, by simp [w.len], ?_, by simp, ?_, ?_, fun c => absurd (mem _) c, fun c => absurd (mem _) c, fun c => absurd (mem _) c,
          fun c => absurd (mem _) c, fun _ => rfl, by simp⟩, [], rfl⟩
        · show (s.log ++ [r])[s.hdr.len]? = some r
          rw [w.len]; simp
        · simp only [if_true, List.length_append, List.length_take, List.length_replicate, w.cap, ← full]; omega
        · intro j hj
          simp only [if_true]
          exact take_written (w.written j hj) hj _
      · simp only [State.goto, eu, if_false]
        exact Local.stable (h.others hh eu) (h.here u) (Nat.le_refl _) grow

theorem perm_nodup (K : Order) : K.stores.Nodup := K.each.nodup_iff.mpr (by decide)

theorem set_written {l : List (Option Record)} {i j : Nat} {r : Record} (h : ∃ x, l[j]? = some (some x)) : ∃ x, (l.set i (some r))[j]? = some (some x) := by
  obtain ⟨x, hx⟩ := h
  by_cases e : i = j
  · subst e
    have : i < l.length := lt_of_some hx
    exact ⟨r, by simp [this]⟩
  · exact ⟨x, by rw [List.getElem?_set_ne e, hx]⟩

/-- What a store leaves as it was. -/
theorem store_written {s : State} {r : Record} {h : Header} {i : Nat} (w : Word) {p j : Nat} (hx : ∃ x, (s.block p)[j]? = some (some x)) :
    ∃ x, ((s.store r h i w).block p)[j]? = some (some x) := by
  cases w
  · simp only [State.store]
    split
    · exact set_written hx
    · exact hx
  all_goals exact hx

theorem State.Half.step {s : State} {r : Record} {h : Header} {i : Nat} {w : Word} {todo : List Word} (H : s.Half r h i (w :: todo)) (nd : (w :: todo).Nodup) (t : Nat) :
    ((s.store r h i w).goto t (.storing r h i todo)).Half r h i todo := by
  have hw : w ∉ todo := (List.nodup_cons.mp nd).1
  have out : ∀ v, v ≠ w → v ∉ todo → v ∉ w :: todo := fun v h1 h2 c => by rcases List.mem_cons.mp c with c | c; exact h1 c; exact h2 c
  have bef : (s.store r h i w).written h.ptr i := fun j hj => store_written w (H.before j hj)
  cases w
  · refine ⟨H.idx, H.len, H.last, H.room, ?_, bef, ?_, fun c => H.ptr (out _ (by decide) c), fun c => H.cap' (out _ (by decide) c), fun c => H.len' (out _ (by decide) c),
      fun c => H.old (List.mem_cons_of_mem _ c), H.alloc⟩
    · show ((s.store r h i .elem).block h.ptr).length = h.cap
      simp only [State.store, if_true, List.length_set]; exact H.cap
    · intro _ j hj
      by_cases e : j < i
      · exact bef j e
      · have : j = i := by have := H.idx; omega
        subst this
        show ∃ x, ((s.store r h j .elem).block h.ptr)[j]? = some (some x)
        have : j < (s.block h.ptr).length := by have := H.cap; have := H.room; omega
        exact ⟨r, by simp [State.store, this]⟩
  · exact ⟨H.idx, H.len, H.last, H.room, H.cap, bef, fun c => H.elem (out _ (by decide) c), fun _ => rfl, fun c => H.cap' (out _ (by decide) c), fun c => H.len' (out _ (by decide) c),
      fun c => H.old (List.mem_cons_of_mem _ c), H.alloc⟩
  · exact ⟨H.idx, H.len, H.last, H.room, H.cap, bef, fun c => H.elem (out _ (by decide) c), fun c => H.ptr (out _ (by decide) c), fun c => H.cap' (out _ (by decide) c), fun _ => rfl,
      fun c => absurd c hw, H.alloc⟩
  · exact ⟨H.idx, H.len, H.last, H.room, H.cap, bef, fun c => H.elem (out _ (by decide) c), fun c => H.ptr (out _ (by decide) c), fun _ => rfl, fun c => H.len' (out _ (by decide) c),
      fun c => H.old (List.mem_cons_of_mem _ c), H.alloc⟩

theorem State.Half.len_le {s : State} {r : Record} {h : Header} {i : Nat} {todo : List Word} (H : s.Half r h i todo) : s.hdr.len ≤ h.len := by
  by_cases e : Word.len ∈ todo
  · have := H.old e; have := H.idx; omega
  · exact Nat.le_of_eq (H.len' e)

theorem store_len {s : State} {r : Record} {h : Header} {i : Nat} {w : Word} {todo : List Word} (H : s.Half r h i todo) : s.hdr.len ≤ (s.store r h i w).hdr.len := by
  have := H.len_le
  cases w <;> first | exact this | exact Nat.le_refl _

theorem suffix_nodup {K : Order} {done todo : List Word} (e : K.stores = done ++ todo) : todo.Nodup := by
  have := perm_nodup K
  rw [e] at this
  exact (List.nodup_append.mp this).2.1

theorem store_log (s : State) (r : Record) (h : Header) (i : Nat) (w : Word) : (s.store r h i w).log = s.log := by cases w <;> rfl
theorem store_pc (s : State) (r : Record) (h : Header) (i : Nat) (w : Word) : (s.store r h i w).pc = s.pc := by cases w <;> rfl
theorem store_mutex (s : State) (r : Record) (h : Header) (i : Nat) (w : Word) : (s.store r h i w).mutex = s.mutex := by cases w <;> rfl
theorem store_fresh (s : State) (r : Record) (h : Header) (i : Nat) (w : Word) : (s.store r h i w).fresh = s.fresh := by cases w <;> rfl

theorem Inv.store {K : Order} {s : State} (h : Inv K s) {t i : Nat} {r : Record} {hd : Header} {w : Word} {todo : List Word} (e : s.pc t = .storing r hd i (w :: todo)) :
    Inv K ((s.store r hd i w).goto t (.storing r hd i todo)) := by
  have hh : (s.pc t).holds = true := by rw [e]; rfl
  have H := h.here t
  rw [e] at H
  obtain ⟨H, done, hd'⟩ := H
  have H' := H.step (suffix_nodup hd') t
  refine ⟨?_, ?_, ?_, ?_, ?_, ?_, ?_⟩
  · intro u hu
    show (s.store r hd i w).mutex = some u
    rw [store_mutex]
    by_cases eu : u = t
    · subst eu; exact h.held _ hh
    · rw [goto_ne _ _ eu, store_pc] at hu; exact h.held u hu
  · intro b j x hx
    show (s.store r hd i w).log[j]? = some x
    rw [store_log]
    change ((s.store r hd i w).block b)[j]? = some (some x) at hx
    cases w
    · simp only [State.store] at hx
      split at hx
      · by_cases ej : i = j
        · subst ej
          rw [List.getElem?_set] at hx
          simp at hx
          rw [← hx.2]; exact H.last
        · rw [List.getElem?_set_ne ej] at hx; exact h.entry _ _ _ hx
      · exact h.entry _ _ _ hx
    all_goals exact h.entry _ _ _ hx
  · intro b hb
    have hb : s.fresh ≤ b := by have := store_fresh s r hd i w; change (s.store r hd i w).fresh ≤ b at hb; omega
    show (s.store r hd i w).block b = []
    have := h.unborn b hb
    cases w <;> simp [State.store, this]
  · intro hn; have := hn t; simp [PC.stores] at this
  · show (s.store r hd i w).hdr.ptr < (s.store r hd i w).fresh
    rw [store_fresh]
    cases w <;> first | exact h.alloc | exact H.alloc
  · have := H'.len_le; have := H'.len; omega
  · intro u
    by_cases eu : u = t
    · subst eu; rw [goto_self]
      exact ⟨H', done ++ [w], by simp [hd']⟩
    · rw [goto_ne _ _ eu, store_pc]
      refine Local.stable (h.others hh eu) (h.here u) (store_len H) fun j x hx => ?_
      show (s.store r hd i w).log[j]? = some x
      rw [store_log]; exact hx

theorem Inv.load {K : Order} {s : State} (h : Inv K s) (p i : Nat) : s.load p i ≠ .range ∧ ∀ r, s.load p i = .record r → s.log[i]? = some r := by
  unfold State.load
  split
  · simp
  · simp
  · rename_i x hx
    refine ⟨by simp, fun r e => ?_⟩
    cases e; exact h.entry _ _ _ hx

theorem Inv.step {K : Order} {s s' : State} (h : Inv K s) {t room : Nat} (hs : s.step K t room = some s') : Inv K s' := by
  have hl := h.here t
  cases e : s.pc t with
  | idle => simp [State.step, e] at hs
  | post r => simp only [State.step, e] at hs; exact h.lock (c := .append r) trivial rfl (by rw [e]; rfl) hs
  | append r => exact h.append e hs
  | storing r hd i todo =>
    rw [e] at hl
    cases todo with
    | nil =>
      simp [State.step, e] at hs; subst hs
      refine h.goto t .posted (fun _ => h.held t (by rw [e]; rfl)) rfl (fun _ => ?_) trivial
      obtain ⟨H, _⟩ := hl
      have e1 := H.ptr (by simp); have e2 := H.len' (by simp); have e3 := H.cap' (by simp)
      exact ⟨by rw [e2, H.len], by rw [e2, e3]; exact H.room, by rw [e1, e3]; exact H.cap, by rw [e1, e2]; exact H.elem (by simp)⟩
    | cons w todo => simp [State.step, e] at hs; subst hs; exact h.store e
  | posted => simp [State.step, e] at hs; subst hs; exact h.unlock (by rw [e]; rfl) (by rw [e]; rfl)
  | fetch i => simp only [State.step, e] at hs; exact h.lock (c := .fetchLen i) trivial rfl (by rw [e]; rfl) hs
  | fetchLen i =>
    have hm := h.held t (by rw [e]; rfl)
    have w := h.quiet (t := t) (by rw [e]; rfl) (by rw [e]; rfl)
    simp [State.step, e] at hs; subst hs
    split
    · rename_i hi; exact h.goto t _ (fun _ => hm) rfl (by rw [e]; simp [PC.stores]) hi
    · rename_i hi
      refine h.goto t _ (fun _ => hm) rfl (by rw [e]; simp [PC.stores]) ?_
      show Found.missing = _
      rw [List.getElem?_eq_none (by have := w.len; omega)]
  | fetchAt i =>
    rw [e] at hl
    have hm := h.held t (by rw [e]; rfl)
    have w := h.quiet (t := t) (by rw [e]; rfl) (by rw [e]; rfl)
    simp [State.step, e] at hs; subst hs
    refine h.goto t _ (fun _ => hm) rfl (by rw [e]; simp [PC.stores]) ?_
    obtain ⟨x, hx⟩ := w.written i hl
    show s.load s.hdr.ptr i = _
    rw [h.entry _ _ _ hx]
    simp [State.load, hx]
  | fetched i x => simp [State.step, e] at hs; subst hs; exact h.unlock (by rw [e]; rfl) (by rw [e]; rfl)
  | listLen i =>
    simp [State.step, e] at hs; subst hs
    split
    · rename_i hi; exact h.goto t _ (by simp [PC.holds]) rfl (by rw [e]; simp [PC.stores]) hi
    · exact h.goto t _ (by simp [PC.holds]) rfl (by rw [e]; simp [PC.stores]) ⟨by simp, by simp⟩
  | listPtr i => simp [State.step, e] at hs; subst hs; exact h.goto t _ (by simp [PC.holds]) rfl (by rw [e]; simp [PC.stores]) trivial
  | early i p =>
    simp [State.step, e] at hs; subst hs
    split
    · rename_i hi; exact h.goto t _ (by simp [PC.holds]) rfl (by rw [e]; simp [PC.stores]) hi
    · exact h.goto t _ (by simp [PC.holds]) rfl (by rw [e]; simp [PC.stores]) ⟨by simp, by simp⟩
  | listAt i =>
    rw [e] at hl
    simp [State.step, e] at hs; subst hs
    split
    · exact h.goto t _ (by simp [PC.holds]) rfl (by rw [e]; simp [PC.stores]) ⟨hl, Nat.le_refl _⟩
    · exact h.goto t _ (by simp [PC.holds]) rfl (by rw [e]; simp [PC.stores]) hl
  | haveLen i n =>
    rw [e] at hl
    simp [State.step, e, hl.1] at hs; subst hs
    exact h.goto t _ (by simp [PC.holds]) rfl (by rw [e]; simp [PC.stores]) trivial
  | havePtr i p =>
    rw [e] at hl
    have hl : i < s.hdr.len := hl
    simp [State.step, e, hl] at hs; subst hs
    exact h.goto t _ (by simp [PC.holds]) rfl (by rw [e]; simp [PC.stores]) trivial
  | load i p =>
    simp [State.step, e] at hs; subst hs
    exact h.goto t _ (by simp [PC.holds]) rfl (by rw [e]; simp [PC.stores]) (h.load p i)
  | listed i x => simp [State.step, e] at hs; subst hs; exact h.goto t _ (by simp [PC.holds]) rfl (by rw [e]; simp [PC.stores]) trivial

theorem Inv.next {K : Order} {s s' : State} (h : Inv K s) {m : Move} (hs : s.next K m = some s') : Inv K s' := by
  cases m with
  | begin t j =>
    simp only [State.next] at hs
    split at hs <;> simp at hs
    rename_i e
    subst hs
    have fine : ∀ c : PC, c.holds = false → c.stores = false → Local K s c → Inv K (s.goto t c) := fun c h1 h2 h3 => h.goto t c (by simp [h1]) h2 (by rw [e]; simp [PC.stores]) h3
    cases j
    · exact fine _ rfl rfl trivial
    · exact fine _ rfl rfl trivial
    · simp only [Job.entry]; split <;> exact fine _ rfl rfl trivial
  | go t room => exact h.step hs

theorem Inv.play {K : Order} : ∀ {ms : List Move} {s s' : State}, Inv K s → State.play K ms s = some s' → Inv K s'
  | [], s, s', h, hp => by simp [State.play] at hp; exact hp ▸ h
  | m :: ms, s, s', h, hp => by
    simp only [State.play] at hp
    split at hp
    · cases hp
    · rename_i s1 e; exact (h.next e).play hp

/-- What a goroutine relies on when the order is good. -/
def Sure (s : State) : PC → Prop
  | .listPtr _ | .early .. => False
  | .havePtr i p | .load i p => ∃ x, (s.block p)[i]? = some (some x)
  | .listed _ x => x = .missing ∨ ∃ r, x = .record r
  | _ => True

/-- What holds when the order is good. -/
structure Sound (s : State) : Prop where
  now : s.written s.hdr.ptr s.hdr.len
  here : ∀ t, Sure s (s.pc t)

theorem Sound.new : Sound State.new := ⟨fun _ h => by simp [State.new] at h, fun _ => trivial⟩

theorem Sure.stable {s s' : State} {c : PC} (h : Sure s c) (k : ∀ p j : Nat, (∃ x, (s.block p)[j]? = some (some x)) → ∃ x, (s'.block p)[j]? = some (some x)) : Sure s' c := by
  cases c <;> first | exact h | exact k _ _ h

/-- An element that has been written is not taken away. -/
theorem step_kept {K : Order} {s s' : State} (h : Inv K s) {m : Move} (hs : s.next K m = some s') (p j : Nat) (hx : ∃ x, (s.block p)[j]? = some (some x)) :
    ∃ x, (s'.block p)[j]? = some (some x) := by
  cases m with
  | begin t j => simp only [State.next] at hs; split at hs <;> simp at hs; subst hs; exact hx
  | go t room =>
    simp only [State.next] at hs
    cases e : s.pc t with
    | append r =>
      simp only [State.step, e] at hs
      split at hs <;> simp at hs <;> subst hs
      · exact hx
      · have : p ≠ s.fresh := by
          intro c; subst c
          obtain ⟨x, hx⟩ := hx
          rw [h.unborn _ (Nat.le_refl _)] at hx; simp at hx
        simpa [this] using hx
    | storing r hd i todo =>
      cases todo with
      | nil => simp [State.step, e] at hs; subst hs; exact hx
      | cons w todo => simp [State.step, e] at hs; subst hs; exact store_written w hx
    | post r => simp only [State.step, e, State.lock] at hs; split at hs <;> simp at hs; subst hs; exact hx
    | fetch r => simp only [State.step, e, State.lock] at hs; split at hs <;> simp at hs; subst hs; exact hx
    | _ => simp [State.step, e] at hs <;> subst hs <;> exact hx

/-- The memory is as it was, and this goroutine is somewhere else. -/
theorem Sound.goto {s : State} (h : Sound s) (t : Nat) (c : PC) (m : Option Nat) (hc : Sure s c) : Sound { s.goto t c with mutex := m } where
  now := h.now
  here u := by
    by_cases e : u = t
    · subst e; simp only [State.goto, if_true]; exact hc.stable fun _ _ => id
    · simp only [State.goto, e, if_false]; exact (h.here u).stable fun _ _ => id

theorem Sound.next {K : Order} (good : K.Good) {s s' : State} (h : Inv K s) (hd : Sound s) {m : Move} (hs : s.next K m = some s') : Sound s' := by
  have kept := step_kept h hs
  cases m with
  | begin t j =>
    simp only [State.next] at hs; split at hs <;> simp at hs; subst hs
    refine hd.goto t _ _ ?_
    cases j <;> simp only [Job.entry, good.2, if_false] <;> trivial
  | go t room =>
    simp only [State.next] at hs
    have hl := hd.here t
    have hi := h.here t
    cases e : s.pc t with
    | idle => simp [State.step, e] at hs
    | append r =>
      have hn : s'.hdr = s.hdr ∧ ∀ u, u ≠ t → s'.pc u = s.pc u := by
        simp only [State.step, e] at hs
        split at hs <;> simp at hs <;> subst hs <;> exact ⟨rfl, fun u hu => by simp [State.goto, hu]⟩
      have ht : Sure s' (s'.pc t) := by
        simp only [State.step, e] at hs
        split at hs <;> simp at hs <;> subst hs <;> simp [State.goto, Sure]
      refine ⟨fun j hj => ?_, fun u => ?_⟩
      · rw [hn.1] at hj ⊢; exact kept _ _ (hd.now j hj)
      · by_cases eu : u = t
        · subst eu; exact ht
        · rw [hn.2 u eu]; exact (hd.here u).stable kept
    | storing r hdr i todo =>
      rw [e] at hi
      obtain ⟨H, done, hK⟩ := hi
      cases todo with
      | nil => simp [State.step, e] at hs; subst hs; exact hd.goto t .posted _ trivial
      | cons w todo =>
        simp [State.step, e] at hs; subst hs
        refine ⟨?_, fun u => ?_⟩
        · cases w with
          | elem => exact fun j hj => kept _ _ (hd.now j hj)
          | cap => exact fun j hj => kept _ _ (hd.now j hj)
          | ptr =>
            intro j hj
            refine kept _ _ ?_
            have : Word.len ∈ Word.ptr :: todo := by
              refine Classical.byContradiction fun c => ?_
              have : Word.len ∈ done := by
                have := K.each.mem_iff.mpr (by decide : Word.len ∈ [Word.cap, .ptr, .len, .elem])
                rw [hK] at this
                rcases List.mem_append.mp this with a | a
                · exact a
                · exact absurd a c
              obtain ⟨a, b, hab⟩ := List.append_of_mem this
              have := (good.1 a (b ++ Word.ptr :: todo) (by rw [hK, hab]; simp)).1
              have nd := perm_nodup K
              rw [hK, hab] at nd
              have := (List.nodup_append.mp nd).2.2 _ (List.mem_append_left _ this) Word.ptr (by simp)
              exact this rfl
            refine H.before j ?_
            have := H.old this
            have hj : j < s.hdr.len := hj
            omega
          | len =>
            obtain ⟨g1, g2⟩ := good.1 done todo hK
            have nd := perm_nodup K
            rw [hK] at nd
            have nd := (List.nodup_append.mp nd).2.2
            intro j hj
            refine kept _ _ ?_
            have hj : j < hdr.len := hj
            have e1 : s.hdr.ptr = hdr.ptr := H.ptr fun c => nd _ g1 _ c rfl
            show ∃ x, (s.block s.hdr.ptr)[j]? = some (some x)
            rw [e1]
            exact H.elem (fun c => nd _ g2 _ c rfl) j hj
        · by_cases eu : u = t
          · subst eu; rw [goto_self]; trivial
          · rw [goto_ne _ _ eu, store_pc]; exact (hd.here u).stable kept
    | post r => simp only [State.step, e, State.lock] at hs; split at hs <;> simp at hs; subst hs; exact hd.goto t _ _ trivial
    | fetch r => simp only [State.step, e, State.lock] at hs; split at hs <;> simp at hs; subst hs; exact hd.goto t _ _ trivial
    | posted => simp [State.step, e] at hs; subst hs; exact hd.goto t _ _ trivial
    | fetchLen i => simp [State.step, e] at hs; subst hs; refine hd.goto t _ _ ?_; split <;> trivial
    | fetchAt i => simp [State.step, e] at hs; subst hs; exact hd.goto t _ _ trivial
    | fetched i x => simp [State.step, e] at hs; subst hs; exact hd.goto t _ _ trivial
    | listPtr i => rw [e] at hl; exact hl.elim
    | early i p => rw [e] at hl; exact hl.elim
    | listLen i =>
      simp [State.step, e] at hs; subst hs; refine hd.goto t _ _ ?_
      split
      · trivial
      · exact Or.inl rfl
    | listAt i =>
      rw [e] at hi
      simp [State.step, e] at hs; subst hs; refine hd.goto t _ _ ?_
      split
      · trivial
      · exact hd.now i hi
    | haveLen i n =>
      rw [e] at hi
      simp [State.step, e, hi.1] at hs; subst hs; refine hd.goto t _ _ ?_
      exact hd.now i (Nat.lt_of_lt_of_le hi.1 hi.2)
    | havePtr i p =>
      rw [e] at hi hl
      have hi : i < s.hdr.len := hi
      simp [State.step, e, hi] at hs; subst hs; exact hd.goto t _ _ hl
    | load i p =>
      rw [e] at hl
      obtain ⟨x, hx⟩ := hl
      simp [State.step, e] at hs; subst hs; refine hd.goto t _ _ (Or.inr ⟨x, ?_⟩)
      simp [State.load, hx]
    | listed i x => simp [State.step, e] at hs; subst hs; exact hd.goto t _ _ trivial

theorem Sound.play {K : Order} (good : K.Good) : ∀ {ms : List Move} {s s' : State}, Inv K s → Sound s → State.play K ms s = some s' → Sound s'
  | [], s, s', _, h, hp => by simp [State.play] at hp; exact hp ▸ h
  | m :: ms, s, s', hi, h, hp => by
    simp only [State.play] at hp
    split at hp
    · cases hp
    · rename_i s1 e; exact Sound.play good (hi.next e) (h.next good hi e) hp

end KM.Words

namespace KM.Props
open KM.Words

/-- What a goroutine that has the mutex finds at `i`: the record that was posted there, if there is one. The words are stored in any order, arrays grow by any amount, and any
number of goroutines post, fetch and list. -/
theorem C99_fetch {K : Order} {ms : List Move} {s : State} (h : State.play K ms .new = some s) {t i : Nat} {x : Found} (ht : s.pc t = .fetched i x) :
    x = match s.log[i]? with | some r => .record r | none => .missing := by
  have := ((Inv.new K).play h).here t
  rw [ht] at this; exact this

/-- When nobody has the mutex, `kp.Records` is the log: the length is right, and at each index is the record that was posted there. -/
theorem C99_rest {K : Order} {ms : List Move} {s : State} (h : State.play K ms .new = some s) (hm : s.mutex = none) :
    s.hdr.len = s.log.length ∧ ∀ (i : Nat) (r : Record), s.log[i]? = some r → s.load s.hdr.ptr i = .record r := by
  have inv := (Inv.new K).play h
  have w := inv.whole fun t => by
    cases e : (s.pc t).stores
    · rfl
    · have := inv.held t (PC.stores_holds e); rw [hm] at this; cases this
  refine ⟨w.len, fun i r hr => ?_⟩
  obtain ⟨x, hx⟩ := w.written i (by rw [w.len]; exact lt_of_some hr)
  have := inv.entry _ _ _ hx
  rw [hr] at this; cases this
  simp [State.load, hx]

/-- What ListOffsets finds without the mutex. The index is never out of range, and a record that is found is the one that was posted there; but in place of a record there may be
a nil pointer, or memory behind the end of the array. -/
theorem C99_list_partial {K : Order} {ms : List Move} {s : State} (h : State.play K ms .new = some s) {t i : Nat} {x : Found} (ht : s.pc t = .listed i x) :
    x = .missing ∨ (∃ r, x = .record r ∧ s.log[i]? = some r) ∨ x = .null ∨ x = .wild := by
  have := ((Inv.new K).play h).here t
  rw [ht] at this
  cases x with
  | record r => exact .inr (.inl ⟨r, rfl, this.2 r rfl⟩)
  | missing => exact .inl rfl
  | range => exact absurd rfl this.1
  | null => exact .inr (.inr (.inl rfl))
  | wild => exact .inr (.inr (.inr rfl))

/-- The records whose posts have begun. -/
def begun (ms : List Move) : List Record := ms.filterMap fun m => match m with
  | .begin _ (.post r) => some r
  | _ => none

/-- The record that this goroutine is still to append. -/
def toAppend (s : State) (t : Nat) : Option Record := match s.pc t with
  | .post r | .append r => some r
  | _ => none

theorem filterMap_swap {f g : Nat → Option Record} {t : Nat} (same : ∀ u, u ≠ t → g u = f u) : ∀ {l : List Nat}, l.Nodup → t ∈ l →
    ∃ rest, (l.filterMap f).Perm ((f t).toList ++ rest) ∧ (l.filterMap g).Perm ((g t).toList ++ rest)
  | x :: l, nd, hm => by
    by_cases e : x = t
    · subst e
      have hn := (List.nodup_cons.mp nd).1
      have : l.filterMap g = l.filterMap f := by
        clear nd hm
        induction l with
        | nil => rfl
        | cons y l ih =>
          have : g y = f y := same y fun c => hn (c ▸ List.mem_cons_self)
          rw [List.filterMap_cons, List.filterMap_cons, this, ih fun c => hn (List.mem_cons_of_mem _ c)]
      refine ⟨l.filterMap f, ?_, ?_⟩
      · rw [List.filterMap_cons]; cases f x <;> exact .refl _
      · rw [List.filterMap_cons, this]; cases g x <;> exact .refl _
    · obtain ⟨rest, h1, h2⟩ := filterMap_swap same (List.nodup_cons.mp nd).2 (by rcases List.mem_cons.mp hm with c | c; exact absurd c.symm e; exact c)
      refine ⟨(f x).toList ++ rest, ?_, ?_⟩
      · rw [List.filterMap_cons]
        cases f x with
        | none => exact h1
        | some y => exact (h1.cons y).trans (List.perm_middle (a := y) (l₁ := (f t).toList) (l₂ := rest)).symm
      · rw [List.filterMap_cons, same x e]
        cases f x with
        | none => exact h2
        | some y => exact (h2.cons y).trans (List.perm_middle (a := y) (l₁ := (g t).toList) (l₂ := rest)).symm

/-- The goroutines that have begun something are among the first `n`. -/
def Move.below (n : Nat) : Move → Prop
  | .begin t _ => t < n
  | .go t _ => t < n

theorem toAppend_next {K : Order} {s s' : State} {n : Nat} {m : Move} (hb : Move.below n m) (h : s.next K m = some s') {before : List Record}
    (hp : (s.log ++ (List.range n).filterMap (toAppend s)).Perm before) : (s'.log ++ (List.range n).filterMap (toAppend s')).Perm (before ++ begun [m]) := by
  -- one goroutine is somewhere else
  have key : ∀ (t : Nat), t < n → (∀ u, u ≠ t → s'.pc u = s.pc u) → (s'.log ++ (toAppend s' t).toList).Perm (s.log ++ (toAppend s t).toList ++ begun [m]) →
      (s'.log ++ (List.range n).filterMap (toAppend s')).Perm (before ++ begun [m]) := by
    intro t ht hu hc
    obtain ⟨rest, h1, h2⟩ := filterMap_swap (f := toAppend s) (g := toAppend s') (fun u e => by unfold toAppend; rw [hu u e]) List.nodup_range (List.mem_range.mpr ht)
    refine (h2.append_left s'.log).trans ?_
    rw [← List.append_assoc]
    refine (hc.append_right rest).trans ?_
    refine .trans ?_ (hp.append_right (begun [m]))
    refine .trans ?_ ((h1.symm.append_left s.log).append_right (begun [m]))
    simp only [List.append_assoc]
    exact .append_left _ (.append_left _ List.perm_append_comm)
  cases m with
  | begin t j =>
    simp only [State.next] at h
    split at h <;> simp at h
    rename_i e
    subst h
    refine key t hb (fun u hu => goto_ne _ _ hu) ?_
    cases j with
    | post r => simp [toAppend, e, Job.entry, begun, State.goto]
    | fetch i => simp [toAppend, e, Job.entry, begun, State.goto]
    | list i => simp only [Job.entry]; split <;> simp [toAppend, e, begun, State.goto]
  | go t room =>
    have hk : ∀ s' : State, s.step K t room = some s' → (∀ u, u ≠ t → s'.pc u = s.pc u) ∧ s'.log ++ (toAppend s' t).toList = s.log ++ (toAppend s t).toList := by
      intro s' h
      cases e : s.pc t with
      | append r => simp only [State.step, e] at h; split at h <;> simp at h <;> subst h <;> exact ⟨fun u hu => by simp [State.goto, hu], by simp [toAppend, e, State.goto]⟩
      | storing r hd i todo =>
        cases todo with
        | nil => simp [State.step, e] at h; subst h; exact ⟨fun u hu => by simp [State.goto, hu], by simp [toAppend, e, State.goto]⟩
        | cons w todo => simp [State.step, e] at h; subst h; exact ⟨fun u hu => by simp [State.goto, hu, store_pc], by simp [toAppend, e, State.goto, store_log]⟩
      | post r => simp only [State.step, e, State.lock] at h; split at h <;> simp at h; subst h; exact ⟨fun u hu => by simp [State.goto, hu], by simp [toAppend, e, State.goto]⟩
      | fetch r => simp only [State.step, e, State.lock] at h; split at h <;> simp at h; subst h; exact ⟨fun u hu => by simp [State.goto, hu], by simp [toAppend, e, State.goto]⟩
      | _ =>
        simp [State.step, e] at h <;> subst h <;> refine ⟨fun u hu => by simp [State.goto, hu], ?_⟩ <;> (try split) <;> simp [toAppend, e, State.goto]
    obtain ⟨h1, h2⟩ := hk s' h
    exact key t hb h1 (by rw [h2]; simp [begun])

theorem toAppend_play {K : Order} {n : Nat} : ∀ {ms : List Move} {s s' : State} {before : List Record}, (∀ m ∈ ms, Move.below n m) → State.play K ms s = some s' →
    (s.log ++ (List.range n).filterMap (toAppend s)).Perm before → (s'.log ++ (List.range n).filterMap (toAppend s')).Perm (before ++ begun ms)
  | [], s, s', b, _, h, hp => by simp [State.play] at h; subst h; simpa [begun] using hp
  | m :: ms, s, s', b, hb, h, hp => by
    simp only [State.play] at h
    split at h
    · cases h
    · rename_i s1 e
      have := toAppend_play (fun m' hm => hb m' (List.mem_cons_of_mem _ hm)) h (toAppend_next (hb m List.mem_cons_self) e hp)
      rw [List.append_assoc] at this
      have e : begun [m] ++ begun ms = begun (m :: ms) := by unfold begun; rw [← List.filterMap_append]; rfl
      rwa [e] at this

theorem exists_below (ms : List Move) : ∃ n, ∀ m ∈ ms, Move.below n m := by
  induction ms with
  | nil => exact ⟨0, by simp⟩
  | cons m ms ih =>
    obtain ⟨n, hn⟩ := ih
    cases m with
    | begin t j =>
      refine ⟨n + t + 1, fun m' hm => ?_⟩
      rcases List.mem_cons.mp hm with rfl | hm
      · simp only [Move.below]; omega
      · have := hn m' hm; cases m' <;> simp only [Move.below] at this ⊢ <;> omega
    | go t j =>
      refine ⟨n + t + 1, fun m' hm => ?_⟩
      rcases List.mem_cons.mp hm with rfl | hm
      · simp only [Move.below]; omega
      · have := hn m' hm; cases m' <;> simp only [Move.below] at this ⊢ <;> omega

/-- The log is what has been posted: when every goroutine is done, it has each record of each post, once. -/
theorem C99_log {K : Order} {ms : List Move} {s : State} (h : State.play K ms .new = some s) (done : ∀ t, s.pc t = .idle) : s.log.Perm (begun ms) := by
  obtain ⟨n, hn⟩ := exists_below ms
  have := toAppend_play hn h (before := []) (by
    have : (List.range n).filterMap (toAppend State.new) = [] := List.filterMap_eq_nil_iff.mpr fun _ _ => rfl
    rw [this]; exact .refl _)
  have e : (List.range n).filterMap (toAppend s) = [] := List.filterMap_eq_nil_iff.mpr fun t _ => by unfold toAppend; rw [done t]
  rw [e] at this
  simpa using this

/-- A record. -/
def aRecord7 : Record := ⟨0, 7, none, none, []⟩

/-- A post by goroutine 0, up to the store of the `n`th word, and then ListOffsets by goroutine 1. -/
def midPost (n : Nat) : List Move :=
  .begin 0 (.post aRecord7) :: .go 0 0 :: .go 0 0 :: (List.replicate n (.go 0 0) ++ [.begin 1 (.list 0), .go 1 0, .go 1 0, .go 1 0, .go 1 0])

/-- ListOffsets by goroutine 1 loads the address, goroutine 0 posts, and ListOffsets goes on. -/
def aroundPost : List Move := [.begin 1 (.list 0), .go 1 0, .begin 0 (.post aRecord7), .go 0 0, .go 0 0, .go 0 0, .go 0 0, .go 0 0, .go 0 0, .go 1 0, .go 1 0, .go 1 0]

/-- Where goroutine 1 is after these moves. -/
def whereabouts (K : Order) (ms : List Move) : Option PC := (State.play K ms .new).map fun s => s.pc 1

theorem four {l : List Word} (h : l.Perm [.cap, .ptr, .len, .elem]) : ∃ a b c d, l = [a, b, c, d] := by
  have := h.length_eq
  match l, this with
  | [a, b, c, d], _ => exact ⟨a, b, c, d, rfl⟩

/-- The length is stored after the address and the element. -/
def lastLen (l : List Word) : Bool := l.idxOf .ptr < l.idxOf .len && l.idxOf .elem < l.idxOf .len

theorem lastLen_good {l : List Word} (nd : l.Nodup) (h : lastLen l = true) (done rest : List Word) (e : l = done ++ .len :: rest) : .ptr ∈ done ∧ .elem ∈ done := by
  subst e
  have n : Word.len ∉ done := fun c => (List.nodup_append.mp nd).2.2 _ c Word.len (by simp) rfl
  have : (done ++ Word.len :: rest).idxOf .len = done.length := by simp [List.idxOf_append, n]
  simp only [lastLen, this, Bool.and_eq_true, decide_eq_true_eq] at h
  refine ⟨?_, ?_⟩
  · refine Classical.byContradiction fun c => ?_
    have := h.1
    simp only [List.idxOf_append, c, if_false] at this
    omega
  · refine Classical.byContradiction fun c => ?_
    have := h.2
    simp only [List.idxOf_append, c, if_false] at this
    omega

/-- Every order that is not good has a run in which ListOffsets finds a nil pointer or other memory. -/
theorem spoilt {K : Order} (bad : ¬ K.Good) : ∃ ms, whereabouts K ms = some (.listed 0 .null) ∨ whereabouts K ms = some (.listed 0 .wild) := by
  obtain ⟨st, each, lo⟩ := K
  have nd := each.nodup_iff.mpr (by decide)
  obtain ⟨a, b, c, d, rfl⟩ := four each
  by_cases hl : lo = .ptrLenLen
  · subst hl
    refine ⟨aroundPost, .inr ?_⟩
    cases a <;> cases b <;> first | (exfalso; revert nd; simp; done) | cases c <;> first | (exfalso; revert nd; simp; done) | cases d <;> first | (exfalso; revert nd; simp; done) | rfl
  · cases hk : lastLen [a, b, c, d]
    · refine ⟨midPost (List.idxOf .len [a, b, c, d] + 1), ?_⟩
      cases a <;> cases b <;> first | (exfalso; revert nd; simp; done) | cases c <;> first | (exfalso; revert nd; simp; done) | cases d <;> first | (exfalso; revert nd; simp; done) | cases lo <;> first | exact absurd rfl hl | (exfalso; revert hk; decide) | exact .inl rfl | exact .inr rfl
    · exact absurd ⟨lastLen_good nd hk, hl⟩ bad

/-- What ListOffsets finds is a record that was posted, whatever happens at the same time, exactly if the words are stored and loaded in a good order. -/
theorem C99_list_iff (K : Order) :
    K.Good ↔ ∀ (ms : List Move) (s : State), State.play K ms .new = some s → ∀ (t i : Nat) (x : Found), s.pc t = .listed i x → x = .missing ∨ ∃ r, x = .record r ∧ s.log[i]? = some r := by
  refine ⟨fun good ms s h t i x ht => ?_, fun h => Classical.byContradiction fun bad => ?_⟩
  · have h1 := (Sound.play good (Inv.new K) Sound.new h).here t
    rw [ht] at h1
    rcases h1 with h1 | ⟨r, rfl⟩
    · exact .inl h1
    · have h2 := ((Inv.new K).play h).here t
      rw [ht] at h2
      exact .inr ⟨r, rfl, h2.2 r rfl⟩
  · obtain ⟨ms, hs⟩ := spoilt bad
    unfold whereabouts at hs
    cases e : State.play K ms .new with
    | none => simp [e] at hs
    | some s =>
      simp [e] at hs
      rcases hs with hs | hs <;> rcases h ms s e 1 0 _ hs with c | ⟨_, c, _⟩ <;> cases c

/-- The order in which the usual compiler stores: the capacity and the address, if the array is new; the length; and the element last. -/
def elementLast : Order := ⟨[.cap, .ptr, .len, .elem], .refl _, .lenLenPtr⟩

/-- The length before the address. -/
def lengthFirst : Order := ⟨[.len, .cap, .elem, .ptr], by decide, .lenLenPtr⟩

/-- A good order. -/
def lengthLast : Order := ⟨[.elem, .cap, .ptr, .len], by decide, .lenLenPtr⟩

/-- C99 fails: a ListOffsets at the same time as the first post to a partition finds a length of 1 and no record (and `msg.Timestamp` ends the process). -/
theorem C99_false : ∃ (ms : List Move) (s : State), State.play elementLast ms .new = some s ∧ s.pc 1 = .listed 0 .null :=
  ⟨midPost 3, _, rfl, rfl⟩

/-- With another order of the stores, it reads behind the end of an array. -/
theorem C99_wild : ∃ (ms : List Move) (s : State), State.play lengthFirst ms .new = some s ∧ s.pc 1 = .listed 0 .wild :=
  ⟨midPost 1, _, rfl, rfl⟩

/-- With a good order of the stores, too, if the loads are exchanged. -/
theorem C99_exchanged : ∃ (ms : List Move) (s : State), State.play { lengthLast with loads := .ptrLenLen } ms .new = some s ∧ s.pc 1 = .listed 0 .wild :=
  ⟨aroundPost, _, rfl, rfl⟩

example : lengthLast.Good := ⟨lastLen_good (by decide) (by decide), by decide⟩

/-- Non-trivial cases: three posts by two goroutines (one array has room, two are new) while goroutine 2 fetches the second record. -/
def somePosts : List Move :=
  [.begin 0 (.post aRecord7), .begin 1 (.post { aRecord7 with timestamp := 8 })] ++ List.replicate 8 (.go 0 1) ++ [.begin 2 (.fetch 1)] ++ List.replicate 8 (.go 1 0) ++
    [.begin 0 (.post { aRecord7 with timestamp := 9 })] ++ List.replicate 8 (.go 0 0) ++ List.replicate 3 (.go 2 0)

example : (State.play elementLast somePosts .new).map (fun s => (s.pc 2, s.hdr, s.log.length, s.mutex)) = some (.fetched 1 (.record { aRecord7 with timestamp := 8 }), ⟨2, 3, 3⟩, 3, some 2) := by
  decide +kernel
example : (State.play elementLast (somePosts ++ [.go 2 0]) .new).map (fun s => (s.mutex, s.load s.hdr.ptr 2)) = some (none, .record { aRecord7 with timestamp := 9 }) := by decide +kernel
example : (State.play elementLast (somePosts ++ [.go 2 0]) .new).map (fun s => (s.log.map (·.timestamp), [s.pc 0, s.pc 1, s.pc 2])) = some ([7, 8, 9], [.idle, .idle, .idle]) := by decide +kernel
example : whereabouts lengthLast (midPost 4) = some (.listed 0 (.record aRecord7)) := by decide +kernel

end KM.Props
