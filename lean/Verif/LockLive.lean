import Verif.Locks
import Verif.Props.Safe
/-
The program of each goroutine in the mock with pointers and mutexes: which function of the store it is in, and that its pointers are not nil.
-/
namespace KM
open KM.Props

/-- What a goroutine that works on the store still has to do; none if it is not serving requests or not inside a posting function. -/
def Sys.prog (s : Sys) : Tid → Option (Prog Unit)
  | .conn c => match s.conns[c]? with
    | some ⟨_, _, _, .body p⟩ => some p
    | _ => none
  | .api i => match s.api i with
    | .call p => some p
    | _ => none

theorem Sys.prog_conn {s : Sys} {c : Nat} {p : Prog Unit} : s.prog (.conn c) = some p ↔ ∃ k, s.conns[c]? = some k ∧ k.pc = .body p := by
  simp only [Sys.prog]
  cases h : s.conns[c]? with
  | none => simp
  | some k => obtain ⟨g, n, x, pc⟩ := k; cases pc <;> simp

theorem Sys.prog_api {s : Sys} {i : Nat} {p : Prog Unit} : s.prog (.api i) = some p ↔ s.api i = .call p := by
  simp only [Sys.prog]
  cases s.api i <;> simp

theorem connStep_ends {s s' : Sys} {c : Nat} (hn : s.connStep c = .ok s') :
    ∃ k pc, s.conns[c]? = some k ∧ s'.conns = s.conns.set c { k with pc := pc } ∧ ∀ p, pc ≠ .body p := by
  unfold Sys.connStep at hn
  split at hn
  · cases hn
  next k hk =>
  refine ⟨k, ?_⟩
  simp only at hn
  split at hn
  · cases hn; exact ⟨_, hk, rfl, nofun⟩
  · cases hn
  · cases hn
  · unfold Sys.lockMu at hn; split at hn <;> cases hn; exact ⟨_, hk, rfl, nofun⟩
  · split at hn <;> cases hn; exact ⟨_, hk, rfl, nofun⟩
  · cases he : s.activeDone <;> rw [he] at hn <;> cases hn
    exact ⟨.oc .wg, hk, by show List.set _ _ _ = _; rw [(activeDone_same he).1], nofun⟩
  · cases he : s.wgDone <;> rw [he] at hn <;> cases hn
    exact ⟨.oc .unlock, hk, by show List.set _ _ _ = _; rw [(wgDone_same he).1], nofun⟩
  · cases hn; exact ⟨_, hk, rfl, nofun⟩
  · cases hn

/-- What a step does to the program of a goroutine. -/
inductive ProgNext (s s' : Sys) (e : SEv) (t : Tid) : Prop where
  | same (h : s'.prog t = s.prog t)
  | gone (hb : e.by = some t) (h : s'.prog t = none)
  | begun (p : Prog Unit) (h : s.prog t = none) (h' : s'.prog t = some p) (ok : p.Ok (fun _ => False) Prog.Ok.nothing)
  | unroll {σ β : Type} (x : σ) (body : σ → Prog (σ ⊕ β)) (f : β → Prog Unit) (hb : e.by = some t) (h : s.prog t = some (.loop x body f))
      (h' : s'.prog t = some (Prog.unroll x body f))
  | act (a : Act) (f : a.Resp → Prog Unit) (r : a.Resp) (hb : e.by = some t) (hq : e.quiet = !a.onStore) (h : s.prog t = some (.act a f))
      (h' : s'.prog t = some (f r))

theorem Sys.prog_conn_congr {s s' : Sys} {c : Nat} (h : s'.conns[c]? = s.conns[c]?) : s'.prog (.conn c) = s.prog (.conn c) := by
  simp only [Sys.prog, h]

theorem Sys.prog_set {s s' : Sys} {c d : Nat} {k : ConnG} {pc : ConnPc} (hk : s.conns[c]? = some k) (h : s'.conns = s.conns.set c { k with pc := pc }) :
    s'.prog (.conn d) = if d = c then (match pc with | .body p => some p | _ => none) else s.prog (.conn d) := by
  split
  · next e =>
    subst e
    have : d < s.conns.length := (List.getElem?_eq_some_iff.1 hk).1
    simp only [Sys.prog, h, List.getElem?_set_self this]
    cases pc <;> rfl
  · next e => exact prog_conn_congr (by rw [h, List.getElem?_set_ne (Ne.symm e)])

theorem ProgNext.of_woken {s s' : Sys} {e : SEv} {i : Nat} (h : Woken (s.api i) (s'.api i)) : ProgNext s s' e (.api i) := by
  refine .same (Option.ext fun p => ?_)
  rw [Sys.prog_api, Sys.prog_api]
  exact h.call

theorem Sys.Step.progNext {s s' : Sys} {e : SEv} (h : Sys.Step s e s') (t : Tid) : ProgNext s s' e t := by
  cases h with
  | @life _ ch hn =>
    cases ch with
    | api i c =>
      cases t with
      | conn d => exact .same (Sys.prog_conn_congr (by rw [apiStep_conns hn]))
      | api j =>
        by_cases e : j = i
        · subst e
          cases hp : s'.prog (.api j) with
          | none => exact .gone rfl hp
          | some p =>
            rcases next_call_back hn (Sys.prog_api.1 hp) with h1 | ⟨c', e, h1, h2⟩
            · exact .same (by rw [hp, Sys.prog_api.2 h1])
            · exact .begun p (by simp [Sys.prog, h1]) hp (called_ok h2)
        · refine .same ?_
          simp only [Sys.prog, apiStep_other hn e]
    | run g ok =>
      cases t with
      | api j => exact .of_woken ((runStep_frame hn).api j)
      | conn d =>
        rcases runStep_conns hn with h1 | ⟨r, _, _, h1⟩
        · exact .same (Sys.prog_conn_congr (by rw [h1]))
        · by_cases hd : d < s.conns.length
          · exact .same (Sys.prog_conn_congr (by rw [h1, List.getElem?_append_left hd]))
          · have hd : s.conns.length ≤ d := Nat.le_of_not_lt hd
            have h0 : s.conns[d]? = none := List.getElem?_eq_none_iff.2 hd
            cases e : d - s.conns.length with
            | zero =>
              refine .begun (handle s.sv) ?_ ?_ (handle_ok s.sv)
              · simp only [Sys.prog, h0]
              · exact Sys.prog_conn.2 ⟨_, by rw [h1, List.getElem?_append_right hd, e]; rfl, rfl⟩
            | succ n => exact .same (Sys.prog_conn_congr (by rw [h1, List.getElem?_append_right hd, e, h0]; rfl))
    | conn c =>
      cases t with
      | api j => exact .of_woken ((connStep_frame hn).api j)
      | conn d =>
        obtain ⟨k, pc, hk, h1, h2⟩ := connStep_ends hn
        have := Sys.prog_set (d := d) hk h1
        split at this
        · next e =>
          subst e
          refine .gone rfl ?_
          rw [this]
          cases pc with
          | body p => exact absurd rfl (h2 p)
          | _ => rfl
        · exact .same this
    | parentCancel => cases hn; cases t <;> exact .same rfl
  | @conn c k a f r w hc hp ha =>
    cases t with
    | api j => exact .same rfl
    | conn d =>
      have := Sys.prog_set (s' := (s.setView k.ctx w).setConn c { k with pc := .body (f r) }) (d := d) hc rfl
      split at this
      · next e => subst e; exact .act a f r rfl rfl (Sys.prog_conn.2 ⟨k, hc, hp⟩) this
      · exact .same this
  | @unroll c k _ _ x body f hc hp =>
    cases t with
    | api j => exact .same rfl
    | conn d =>
      have := Sys.prog_set (s' := s.setConn c { k with pc := .body (Prog.unroll x body f) }) (d := d) hc rfl
      split at this
      · next e => subst e; exact .unroll x body f rfl (Sys.prog_conn.2 ⟨k, hc, hp⟩) this
      · exact .same this
  | @call i a f r w hp ha =>
    cases t with
    | conn d => exact .same rfl
    | api j =>
      by_cases e : j = i
      · subst e; exact .act a f r rfl rfl (Sys.prog_api.2 hp) (by simp [Sys.prog, Sys.setApi])
      · refine .same ?_
        simp [Sys.prog, Sys.setApi, e]
  | tick d => cases t <;> exact .same rfl

/-! ### Pointers -/

/-- The goroutine has a pointer to the topic or partition. -/
def Locals.has (l : Locals) : Loc → Prop
  | (t, none) => (l.kt t).isSome
  | (t, some p) => (l.kp t p).isSome

/-- What has been found out is what this function looks for. -/
def Seen.fits : Act → Seen → Prop
  | .createTopic t, .noTopic t' => t' = t
  | .createPartition _ p, .noPart p' => p' = p
  | .post _ _ _, .recs _ => True
  | .commit _ _ g o, .low g' o' => g' = g ∧ o' = o
  | .groupCommitted _ _ g, .noGroup g' => g' = g
  | .fetchRecord _ _ i, .below i' => i' = i
  | _, _ => False

/-- What holds of a goroutine with this program. -/
structure Ready (p? : Option (Prog Unit)) (l : Locals) : Prop where
  idle : p? = none → l.pc = .out
  ok : ∀ p, p? = some p → ∃ K Q, p.Ok K Q ∧ ∀ x, K x → l.has x
  inside : ∀ k s, l.pc = .inside k s → ∃ a f, p? = some (.act a f) ∧ a.lock l = some k ∧ ∀ x, s = some x → x.fits a

def Fine.Live (F : Fine) : Prop := ∀ t, Ready (F.sys.prog t) (F.loc t)

theorem Act.lock_congr {a : Act} {l l' : Locals} (h1 : l'.kt = l.kt) (h2 : l'.kp = l.kp) : a.lock l' = a.lock l := by
  cases a <;> simp only [Act.lock, h1, h2]

theorem Locals.has_congr {l l' : Locals} (h1 : l'.kt = l.kt) (h2 : l'.kp = l.kp) {x : Loc} : l'.has x ↔ l.has x := by
  rcases x with ⟨t, _ | p⟩ <;> simp only [Locals.has, h1, h2]

theorem critical_go {a : Act} {k : Lock} {s : Option Seen} {m m' : Mem} {l l' : Locals} (h : critical a k s m l = .go m' l') :
    s = none ∧ l'.kt = l.kt ∧ l'.kp = l.kp ∧ ∃ x, l'.pc = .inside k (some x) ∧ x.fits a := by
  unfold critical at h
  split at h <;> (try split at h) <;> cases h <;> first
    | exact ⟨rfl, rfl, rfl, _, rfl, trivial⟩
    | exact ⟨rfl, rfl, rfl, _, rfl, rfl⟩
    | exact ⟨rfl, rfl, rfl, _, rfl, rfl, rfl⟩

theorem unlocked_go {a : Act} {m m' : Mem} {l l' : Locals} : unlocked a m l ≠ .go m' l' := by
  intro h
  unfold unlocked at h
  split at h <;> (try split at h) <;> cases h

theorem micro_go {me : Tid} {a : Act} {m m' : Mem} {l l' : Locals} (h : micro me a m l = .go m' l') :
    l'.kt = l.kt ∧ l'.kp = l.kp ∧ ∃ k s, l'.pc = .inside k s ∧ a.lock l = some k ∧ (∀ x, s = some x → x.fits a) ∧
      ((l.pc = .out ∧ s = none) ∨ (l.pc = .inside k none ∧ s ≠ none)) := by
  unfold micro at h
  split at h
  · next hp =>
    split at h
    · next k hk =>
      split at h <;> cases h
      exact ⟨rfl, rfl, k, none, rfl, hk, nofun, .inl ⟨hp, rfl⟩⟩
    · exact absurd h unlocked_go
  · next k s hp =>
    split at h
    · next hk =>
      obtain ⟨rfl, h1, h2, x, h3, h4⟩ := critical_go h
      exact ⟨h1, h2, k, some x, h3, hk, fun y e => by cases e; exact h4, .inr ⟨hp, nofun⟩⟩
    · cases h
  · cases h

theorem Locals.has_setT {l : Locals} {t : Bytes} {o : Option Nat} (ho : (l.kt t).isSome → o.isSome) {x : Loc} (h : l.has x) : (l.setT t o).has x := by
  rcases x with ⟨u, _ | p⟩
  · simp only [Locals.has, Locals.setT] at h ⊢
    split
    · next e => subst e; exact ho h
    · exact h
  · exact h

theorem Locals.has_setP {l : Locals} {t : Bytes} {p : I32} {o : Option Nat} (ho : (l.kp t p).isSome → o.isSome) {x : Loc} (h : l.has x) :
    (l.setP t p o).has x := by
  rcases x with ⟨u, _ | q⟩
  · exact h
  · simp only [Locals.has, Locals.setP] at h ⊢
    split
    · next e => obtain ⟨rfl, rfl⟩ := e; exact ho h
    · exact h

theorem Locals.setT_has (l : Locals) (t : Bytes) {o : Option Nat} (h : o.isSome) : (l.setT t o).has (t, none) := by
  simp only [Locals.has, Locals.setT, if_pos]; exact h

theorem Locals.setP_has (l : Locals) (t : Bytes) (p : I32) {o : Option Nat} (h : o.isSome) : (l.setP t p o).has (t, some p) := by
  simp only [Locals.has, Locals.setP, and_self, if_pos]; exact h

theorem critical_done {me : Tid} {a : Act} {k : Lock} {s : Option Seen} {m m' : Mem} {l l' : Locals} {r r' : a.Resp} (hl : l.WF m me)
    (hk : a.lock l = some k) (h : critical a k s m l = .done r m' l') (hr : a.upTo r r') :
    (∀ x, l.has x → l'.has x) ∧ (∀ x, a.gives r' x → l'.has x) ∧ l'.pc = .leave k := by
  have same : ∀ {l1 : Locals}, l1.kt = l.kt → l1.kp = l.kp → ∀ x, l.has x → l1.has x := fun h1 h2 x => (Locals.has_congr h1 h2).2
  unfold critical at h
  split at h
  · split at h <;> cases h
    exact ⟨fun x hx => Locals.has_setT (fun _ => rfl) hx, fun x hx => by cases hx; exact Locals.setT_has l _ rfl, rfl⟩
  · split at h <;> cases h
    exact ⟨fun x hx => Locals.has_setT (fun _ => rfl) hx, fun x hx => by cases hx; exact Locals.setT_has l _ rfl, rfl⟩
  · cases h
    cases hr
    refine ⟨fun x hx => Locals.has_setT (fun h => ?_) hx, fun x hx => ?_, rfl⟩
    · obtain ⟨a', ha⟩ := Option.isSome_iff_exists.1 h
      rw [hl.kt _ _ ha]; rfl
    · obtain ⟨h1, rfl⟩ := hx; exact Locals.setT_has l _ h1
  · split at h <;> cases h
    exact ⟨fun x hx => Locals.has_setP (fun _ => rfl) hx, fun x hx => by cases hx; exact Locals.setP_has l _ _ rfl, rfl⟩
  · split at h <;> cases h
    exact ⟨fun x hx => Locals.has_setP (fun _ => rfl) hx, fun x hx => by cases hx; exact Locals.setP_has l _ _ rfl, rfl⟩
  · next t p a' _ _ =>
    cases h
    cases hr
    refine ⟨fun x hx => Locals.has_setP (fun h => ?_) hx, fun x hx => ?_, rfl⟩
    · obtain ⟨y, hy⟩ := Option.isSome_iff_exists.1 h
      obtain ⟨b, hb, hp⟩ := hl.kp _ _ _ hy
      obtain ⟨c, hc, e⟩ := Option.map_eq_some_iff.1 hk
      cases e
      have := hl.kt _ _ hc
      rw [hb] at this
      cases this
      rw [hp]; rfl
    · obtain ⟨h1, rfl⟩ := hx; exact Locals.setP_has l _ _ h1
  all_goals (try split at h) <;> cases h <;> exact ⟨same rfl rfl, fun x hx => hx.elim, rfl⟩

theorem unlocked_done {a : Act} {m m' : Mem} {l l' : Locals} {r r' : a.Resp} (h : unlocked a m l = .done r m' l') (hr : a.upTo r r') :
    (∀ x, l.has x → l'.has x) ∧ (∀ x, a.gives r' x → l'.has x) ∧ l'.pc = l.pc := by
  unfold unlocked at h
  split at h
  · split at h <;> cases h; exact ⟨fun _ => id, fun x hx => hx.elim, rfl⟩
  · split at h <;> cases h; exact ⟨fun _ => id, fun x hx => hx.elim, rfl⟩
  · split at h <;> cases h; exact ⟨fun _ => id, fun x hx => hx.elim, rfl⟩
  · cases h
    refine ⟨fun x hx => ?_, fun x hx => ?_, rfl⟩
    · rcases x with ⟨t, _ | p⟩
      · simp only [Locals.has] at hx ⊢
        cases GoMap.get m.topics t with
        | none => exact hx
        | some a => rfl
      · exact hx
    · obtain ⟨t, ht, rfl⟩ := hx
      have h1 := (GoMap.mem_keys_iff _ _).1 (List.Perm.subset hr ht)
      obtain ⟨b, hb⟩ := Option.isSome_iff_exists.1 h1
      simp [Locals.has, hb]
  · split at h <;> cases h; exact ⟨fun _ => id, fun x hx => hx.elim, rfl⟩
  · cases h

theorem micro_done {me : Tid} {a : Act} {m m' : Mem} {l l' : Locals} {r r' : a.Resp} (hl : l.WF m me) (h : micro me a m l = .done r m' l')
    (hr : a.upTo r r') : (∀ x, l.has x → l'.has x) ∧ (∀ x, a.gives r' x → l'.has x) ∧
      ((l.pc = .out ∧ l'.pc = .out) ∨ ∃ k s, l.pc = .inside k s ∧ l'.pc = .leave k) := by
  unfold micro at h
  split at h
  · next hp =>
    split at h
    · split at h <;> cases h
    · obtain ⟨h1, h2, h3⟩ := unlocked_done h hr
      exact ⟨h1, h2, .inl ⟨hp, by rw [h3, hp]⟩⟩
  · next k s hp =>
    split at h
    · next hk =>
      obtain ⟨h1, h2, h3⟩ := critical_done hl hk h hr
      exact ⟨h1, h2, .inr ⟨k, s, hp, h3⟩⟩
    · cases h
  · cases h

theorem Act.gives_onStore {a : Act} (h : a.onStore = false) {r : a.Resp} {x : Loc} : ¬ a.gives r x := by
  cases a <;> first | exact id | cases h

theorem Ready.gone {l : Locals} (h : l.pc = .out) : Ready none l := ⟨fun _ => h, nofun, fun k s h' => by rw [h] at h'; cases h'⟩

theorem Fine.Step.live {F F' : Fine} {e : FEv} (hF : F.WF) (hL : F.Live) (h : Fine.Step F e F') : F'.Live := by
  have out : ∀ {p? : Option (Prog Unit)} {l : Locals}, l.pc = .out → (∀ p, p? = some p → ∃ K Q, p.Ok K Q ∧ ∀ x, K x → l.has x) → Ready p? l :=
    fun h ok => ⟨fun _ => h, ok, fun k s h' => by rw [h] at h'; cases h'⟩
  have go : ∀ {t : Tid} {a : Act} {f : a.Resp → Prog Unit} {m : Mem} {l : Locals}, F.sys.prog t = some (.act a f) → micro t a F.mem (F.loc t) = .go m l →
      ∀ u, Ready (F.sys.prog u) (F.setLoc t l u) := by
    intro t a f m l hp h u
    simp only [Fine.setLoc]
    split
    · next e =>
      subst e
      obtain ⟨h1, h2, k, s, h3, h4, h5, _⟩ := micro_go h
      refine ⟨fun h => (by rw [hp] at h; cases h), fun p e => ?_, fun k' s' h => ?_⟩
      · obtain ⟨K, Q, h6, h7⟩ := (hL u).ok p e
        exact ⟨K, Q, h6, fun x hx => (Locals.has_congr h1 h2).2 (h7 x hx)⟩
      · rw [h3] at h; cases h
        exact ⟨a, f, hp, by rw [Act.lock_congr h1 h2, h4], h5⟩
    · exact hL u
  have done : ∀ {t : Tid} {a : Act} {f : a.Resp → Prog Unit} {m : Mem} {l : Locals} {r r' : a.Resp} {s' : Sys}, F.sys.prog t = some (.act a f) →
      micro t a F.mem (F.loc t) = .done r m l → a.upTo r r' → s'.prog t = some (f r') → (∀ u, u ≠ t → s'.prog u = F.sys.prog u) →
      ∀ u, Ready (s'.prog u) (F.setLoc t l u) := by
    intro t a f m l r r' s' hp h hr hp' ho u
    simp only [Fine.setLoc]
    split
    · next e =>
      subst e
      obtain ⟨h1, h2, h3⟩ := micro_done (hF.loc u) h hr
      rw [hp']
      refine ⟨nofun, fun p e => ?_, fun k' s' h => ?_⟩
      · cases e
        obtain ⟨K, Q, h6, h7⟩ := (hL u).ok _ hp
        refine ⟨_, Q, h6.2 r', fun x hx => hx.elim (fun hx => h1 x (h7 x hx)) (h2 x)⟩
      · rcases h3 with ⟨_, h3⟩ | ⟨k, s, _, h3⟩ <;> rw [h3] at h <;> cases h
    · next e => rw [ho u e]; exact hL u
  cases h with
  | @other e s hq ho h =>
    intro t
    show Ready (s.prog t) (F.loc t)
    cases h.progNext t with
    | same h1 => rw [h1]; exact hL t
    | gone hb h1 => rw [h1]; exact .gone (ho t hb)
    | begun p h0 h1 ok =>
      rw [h1]
      exact out ((hL t).idle h0) fun p e => by cases e; exact ⟨_, _, ok, fun _ => False.elim⟩
    | unroll x body f hb h0 h1 =>
      rw [h1]
      refine out (ho t hb) fun p e => ?_
      cases e
      obtain ⟨K, Q, h6, h7⟩ := (hL t).ok _ h0
      exact ⟨K, Q, h6.unroll, h7⟩
    | act a f r hb hq' h0 h1 =>
      rw [h1]
      refine out (ho t hb) fun p e => ?_
      cases e
      obtain ⟨K, Q, h6, h7⟩ := (hL t).ok _ h0
      have hn : a.onStore = false := by rw [hq] at hq'; simpa using hq'.symm
      exact ⟨_, Q, h6.2 r, fun x hx => hx.elim (h7 x) fun hx => absurd hx (Act.gives_onStore hn)⟩
  | @connGo c k a f m l hc hp h => exact go (Sys.prog_conn.2 ⟨k, hc, hp⟩) h
  | @connDone c k a f r r' m l hc hp h hr =>
    have hs : ∀ d, _ := fun d => Sys.prog_set (s' := (F.sys.setView k.ctx (F.sys.view k.ctx)).setConn c { k with pc := .body (f r') }) (d := d) hc rfl
    refine done (Sys.prog_conn.2 ⟨k, hc, hp⟩) h hr (by rw [hs, if_pos rfl]) fun u hu => ?_
    cases u with
    | conn d => rw [hs, if_neg fun e => hu (by rw [e])]
    | api j => rfl
  | @callGo i a f m l hp h => exact go (Sys.prog_api.2 hp) h
  | @callDone i a f r r' m l hp h hr =>
    refine done (Sys.prog_api.2 hp) h hr (by simp [Sys.prog, Sys.setApi]) fun u hu => ?_
    cases u with
    | conn d => rfl
    | api j =>
      have : j ≠ i := fun e => hu (by rw [e])
      simp [Sys.prog, Sys.setApi, this]
  | @unlock t k h =>
    intro u
    show Ready _ (F.setLoc t _ u)
    simp only [Fine.setLoc]
    split
    · next e => subst e; exact out rfl (hL u).ok
    · exact hL u

theorem Fine.new_live (sv : Server) (clock : Int) : (Fine.new sv clock).Live := by
  intro t
  have : (Fine.new sv clock).sys.prog t = none := by cases t <;> rfl
  rw [this]
  exact .gone rfl

theorem Fine.Run.live {F F' : Fine} {tr : List FEv} (h : Fine.Run F tr F') (hF : F.WF) (hL : F.Live) : F'.Live := by
  induction h with
  | nil => exact hL
  | cons h _ ih => exact ih (h.refines hF).1 (h.live hF hL)

/-! ### Progress -/

theorem critical_ready {a : Act} {k : Lock} {s : Option Seen} {m : Mem} {l : Locals} (hk : a.lock l = some k) (hs : ∀ x, s = some x → x.fits a) :
    critical a k s m l ≠ .blocked := by
  cases a <;> simp only [Act.lock, Option.some.injEq, Option.map_eq_some_iff, reduceCtorEq] at hk
  case createTopic t =>
    subst hk
    cases s with
    | none => simp only [critical]; split <;> nofun
    | some x => have := hs x rfl; cases x <;> first | exact this.elim | (simp only [Seen.fits] at this; simp [critical, this])
  case getTopic => subst hk; cases s with
    | none => nofun
    | some x => exact (hs x rfl).elim
  case createPartition t p =>
    obtain ⟨b, _, rfl⟩ := hk
    cases s with
    | none => simp only [critical]; split <;> nofun
    | some x => have := hs x rfl; cases x <;> first | exact this.elim | (simp only [Seen.fits] at this; simp [critical, this])
  case getPartition => obtain ⟨b, _, rfl⟩ := hk; cases s with
    | none => nofun
    | some x => exact (hs x rfl).elim
  all_goals
    obtain ⟨b, _, rfl⟩ := hk
    cases s with
    | none => simp only [critical]; (try split) <;> nofun
    | some x => have := hs x rfl; cases x <;> first | exact this.elim | (simp only [Seen.fits] at this; simp [critical, this])

/-- Without the lock, nothing is in the way of an access but a nil pointer. -/
theorem unlocked_ready {a : Act} {m : Mem} {l : Locals} (ha : a.onStore = true) (hk : a.lock l = none) (hn : ∀ x, a.needs = some x → l.has x) :
    unlocked a m l ≠ .blocked := by
  have hT : ∀ t, a.needs = some (t, none) → ∃ b, l.kt t = some b := fun t h => Option.isSome_iff_exists.1 (hn _ h)
  have hP : ∀ t p, a.needs = some (t, some p) → ∃ b, l.kp t p = some b := fun t p h => Option.isSome_iff_exists.1 (hn _ h)
  cases a <;> first | cases ha; done | skip
  case rangeTopics => nofun
  case rangePartitions => obtain ⟨b, h⟩ := hT _ rfl; simp [unlocked, h]
  case partInfo | numRecords | recordAt => obtain ⟨b, h⟩ := hP _ _ rfl; simp [unlocked, h]
  case createTopic | getTopic => cases hk
  case createPartition | getPartition => obtain ⟨b, h⟩ := hT _ rfl; simp [Act.lock, h] at hk
  case post | commit | groupCommitted | setOffset | fetchRecord => obtain ⟨b, h⟩ := hP _ _ rfl; simp [Act.lock, h] at hk

/-- The goroutine that makes a step. -/
def FEv.by : FEv → Option Tid
  | .sys e => e.by
  | .mem t => some t

/-- The goroutine can make a step. -/
def Fine.canStep (F : Fine) (t : Tid) : Prop := ∃ e F', e.by = some t ∧ Fine.Step F e F'

theorem Act.upTo_refl (a : Act) (r : a.Resp) : a.upTo r r := by
  cases a <;> first | exact List.Perm.refl _ | exact rfl

theorem canStep_micro {F : Fine} {t : Tid} {a : Act} {f : a.Resp → Prog Unit} (hp : F.sys.prog t = some (.act a f))
    (h : micro t a F.mem (F.loc t) ≠ .blocked) : F.canStep t := by
  cases hm : micro t a F.mem (F.loc t) with
  | blocked => exact absurd hm h
  | go m l =>
    cases t with
    | conn c => obtain ⟨k, hc, hp⟩ := Sys.prog_conn.1 hp; exact ⟨_, _, rfl, .connGo hc hp hm⟩
    | api i => exact ⟨_, _, rfl, .callGo (Sys.prog_api.1 hp) hm⟩
  | done r m l =>
    cases t with
    | conn c => obtain ⟨k, hc, hp⟩ := Sys.prog_conn.1 hp; exact ⟨_, _, rfl, .connDone hc hp hm (a.upTo_refl r)⟩
    | api i => exact ⟨_, _, rfl, .callDone (Sys.prog_api.1 hp) hm (a.upTo_refl r)⟩

/-- Whoever holds a mutex of the store can go on. -/
theorem Fine.holder_steps {F : Fine} (hF : F.WF) (hL : F.Live) {k : Lock} {t : Tid} (h : F.mem.locks k = some t) : F.canStep t := by
  rcases hF.owner k t h with h1 | ⟨s, h1⟩
  · exact ⟨.mem t, _, rfl, .unlock h1⟩
  · obtain ⟨a, f, h2, h3, h4⟩ := (hL t).inside k s h1
    refine canStep_micro h2 ?_
    unfold micro
    rw [h1]
    simp only
    rw [if_pos h3]
    exact critical_ready h3 h4

/-- A program without loops that does not panic. -/
def Prog.flat {α : Type} : Prog α → Prop
  | .ret _ => True
  | .panic => False
  | .act _ k => ∀ r, (k r).flat
  | .loop _ _ _ => False

theorem Exec.flat {α : Type} {w w' : World} {p p' : Prog α} {tr : List Ev} (h : Exec w p tr w' p') (hp : p.flat) : p'.flat := by
  induction h with
  | refl => exact hp
  | env _ _ _ _ ih => exact ih hp
  | mine _ _ r _ _ ih => exact ih (hp r)
  | unroll => exact hp.elim

theorem Call.flat {c : Call} {p : Prog Unit} (h : c.entry = .call p) : p.flat := by
  cases c <;> cases h
  · exact fun _ _ _ _ => trivial
  · exact fun _ _ _ _ => trivial
  · next part ts =>
    induction ts with
    | nil => trivial
    | cons t ts ih => exact fun _ _ => ih
  · intro kt
    dsimp only
    split
    · intro kp
      dsimp only
      split
      · exact fun _ => trivial
      · trivial
    · trivial

/-- A goroutine that works on the store can go on, or waits for a mutex held by another one that can go on. -/
theorem Fine.progress {F : Fine} (hF : F.WF) (hL : F.Live) {t : Tid} {p : Prog Unit} (hA : ∀ i p, F.sys.api i = .call p → p.flat)
    (hp : F.sys.prog t = some p) (hne : p ≠ .panic) : F.canStep t ∨ ∃ k u, u ≠ t ∧ F.mem.locks k = some u ∧ F.canStep u := by
  cases hpc : (F.loc t).pc with
  | leave k => exact .inl ⟨.mem t, _, rfl, .unlock hpc⟩
  | inside k s => exact .inl (Fine.holder_steps hF hL ((hF.loc t).held k s hpc).1)
  | out =>
    have quiet : ∀ {e : SEv} {s : Sys}, e.quiet = true → e.by = some t → Sys.Step F.sys e s → F.canStep t := fun hq hb h =>
      ⟨.sys _, _, hb, .other hq (fun u hu => by rw [hb] at hu; cases hu; exact hpc) h⟩
    obtain ⟨K, Q, hok, hK⟩ := (hL t).ok p hp
    cases p with
    | panic => exact absurd rfl hne
    | ret v =>
      left
      cases t with
      | conn c =>
        obtain ⟨k, hc, hk⟩ := Sys.prog_conn.1 hp
        refine quiet (e := .life (.conn c)) rfl rfl (.life (s' := F.sys.setConn c { k with pc := .oc .lock }) ?_)
        simp [Sys.next, Sys.connStep, hc, hk]
      | api i =>
        refine quiet (e := .life (.api i .start)) rfl rfl (.life (s' := F.sys.setApi i .idle) ?_)
        simp [Sys.next, Sys.apiStep, Sys.prog_api.1 hp]
    | loop x body f =>
      cases t with
      | conn c =>
        obtain ⟨k, hc, hk⟩ := Sys.prog_conn.1 hp
        exact .inl (quiet (e := .unroll c) rfl rfl (.unroll hc hk))
      | api i => exact (hA i _ (Sys.prog_api.1 hp)).elim
    | act a f =>
      have hn : ∀ x, a.needs = some x → (F.loc t).has x := fun x hx => hK x (hok.1 x hx)
      cases ha : a.onStore with
      | false =>
        left
        have he : ∀ w : World, ∃ r w', a.step w r w' := fun w => Act.enabled fun x hx => by
          cases a <;> first | (cases hx; done) | cases ha
        cases t with
        | conn c =>
          obtain ⟨k, hc, hk⟩ := Sys.prog_conn.1 hp
          obtain ⟨r, w, h⟩ := he (F.sys.view k.ctx)
          exact quiet (e := .conn c a r) (by simp [SEv.quiet, ha]) rfl (.conn hc hk h)
        | api i =>
          obtain ⟨r, w, h⟩ := he (F.sys.view 0)
          exact quiet (e := .call i a r) (by simp [SEv.quiet, ha]) rfl (.call (Sys.prog_api.1 hp) h)
      | true =>
        cases hk : a.lock (F.loc t) with
        | none =>
          left
          refine canStep_micro hp ?_
          unfold micro
          rw [hpc]
          simp only [hk]
          exact unlocked_ready ha hk hn
        | some k =>
          cases hl : F.mem.locks k with
          | none =>
            left
            refine canStep_micro hp ?_
            unfold micro
            rw [hpc]
            simp only [hk, hl, if_pos]
            nofun
          | some u =>
            refine .inr ⟨k, u, ?_, hl, Fine.holder_steps hF hL hl⟩
            rintro rfl
            rcases hF.owner k u hl with h1 | ⟨s, h1⟩ <;> rw [hpc] at h1 <;> cases h1

/-! ### How long a mutex is held -/

/-- Number of own steps after which a goroutine has left the function of the store it is in, at most. -/
def LockPc.left : LockPc → Nat
  | .out => 0
  | .leave _ => 1
  | .inside _ (some _) => 2
  | .inside _ none => 3

theorem LockPc.left_le (pc : LockPc) : pc.left ≤ 3 := by
  rcases pc with _ | ⟨k, _ | s⟩ | k <;> simp [LockPc.left]

/-- What a step does to other goroutines and to pointers. -/
theorem Fine.Step.ext {F F' : Fine} {e : FEv} (hF : F.WF) (h : Fine.Step F e F') :
    (∀ t, e.by ≠ some t → F'.loc t = F.loc t ∧ ∀ k, F'.mem.locks k = some t ↔ F.mem.locks k = some t) ∧
    (∀ t a, GoMap.get F.mem.topics t = some a → GoMap.get F'.mem.topics t = some a) ∧
    ∀ a p x, GoMap.get (F.mem.parts a) p = some x → GoMap.get (F'.mem.parts a) p = some x := by
  have key : ∀ {t : Tid} {m : Mem} {l : Locals} (s : Sys), Keeps t F.mem m l →
      (∀ u, u ≠ t → F.setLoc t l u = F.loc u ∧ ∀ k, m.locks k = some u ↔ F.mem.locks k = some u) ∧
      (∀ t a, GoMap.get F.mem.topics t = some a → GoMap.get m.topics t = some a) ∧
      ∀ a p x, GoMap.get (F.mem.parts a) p = some x → GoMap.get (m.parts a) p = some x :=
    fun s h => ⟨fun u hu => ⟨if_neg hu, fun k => h.ext.locks k u hu⟩, h.ext.topics, h.ext.parts⟩
  have ne : ∀ {t u : Tid}, some t ≠ some u → u ≠ t := fun h e => h (by rw [e])
  cases h with
  | other hq ho h => exact ⟨fun t _ => ⟨rfl, fun _ => Iff.rfl⟩, fun _ _ h => h, fun _ _ _ h => h⟩
  | @connGo c k a f m l hc hp h =>
    have g := micro_good (a := a) hF.mem (hF.loc (.conn c)) (fun k => hF.owner k _)
    rw [h] at g
    have := key F.sys g.2
    exact ⟨fun u hu => this.1 u (ne hu), this.2⟩
  | @connDone c k a f r r' m l hc hp h hr =>
    have g := micro_good (a := a) hF.mem (hF.loc (.conn c)) (fun k => hF.owner k _)
    rw [h] at g
    have := key F.sys g.2
    exact ⟨fun u hu => this.1 u (ne hu), this.2⟩
  | @callGo i a f m l hp h =>
    have g := micro_good (a := a) hF.mem (hF.loc (.api i)) (fun k => hF.owner k _)
    rw [h] at g
    have := key F.sys g.2
    exact ⟨fun u hu => this.1 u (ne hu), this.2⟩
  | @callDone i a f r r' m l hp h hr =>
    have g := micro_good (a := a) hF.mem (hF.loc (.api i)) (fun k => hF.owner k _)
    rw [h] at g
    have := key F.sys g.2
    exact ⟨fun u hu => this.1 u (ne hu), this.2⟩
  | unlock hp =>
    have := key F.sys (hF.unlock hp)
    exact ⟨fun u hu => this.1 u (ne hu), this.2⟩

/-- An own step of a goroutine that holds a mutex brings it closer to the unlock, or is the unlock. -/
theorem Fine.Step.closer {F F' : Fine} {e : FEv} (hF : F.WF) (h : Fine.Step F e F') {k : Lock} {t : Tid} (hk : F.mem.locks k = some t)
    (he : e.by = some t) : F'.mem.locks k = none ∨ (F'.mem.locks k = some t ∧ (F'.loc t).pc.left < (F.loc t).pc.left) := by
  have hF' := (h.refines hF).1
  have hout : (F.loc t).pc ≠ .out := by
    intro h1
    rcases hF.owner k t hk with h2 | ⟨s, h2⟩ <;> rw [h1] at h2 <;> cases h2
  have go : ∀ {a : Act} {m : Mem} {l : Locals} {s : Sys}, micro t a F.mem (F.loc t) = .go m l → ({ sys := s, mem := m, loc := F.setLoc t l } : Fine).WF →
      m.locks k = some t ∧ (F.setLoc t l t).pc.left < (F.loc t).pc.left := by
    intro a m l s h hw
    obtain ⟨_, _, j, s, h1, _, _, h2⟩ := micro_go h
    rcases h2 with ⟨h2, _⟩ | ⟨h2, h3⟩
    · exact absurd h2 hout
    have hl := (hw.loc t).held j s (by simp only [Fine.setLoc, if_pos]; exact h1)
    refine ⟨?_, ?_⟩
    · rcases hF.owner k t hk with h4 | ⟨s', h4⟩ <;> rw [h2] at h4 <;> cases h4
      exact hl.1
    · simp only [Fine.setLoc, if_pos]
      rw [h1, h2]
      cases s with
      | none => exact absurd rfl h3
      | some s => simp [LockPc.left]
  have done : ∀ {a : Act} {r : a.Resp} {m : Mem} {l : Locals} {s : Sys}, micro t a F.mem (F.loc t) = .done r m l →
      ({ sys := s, mem := m, loc := F.setLoc t l } : Fine).WF → m.locks k = some t ∧ (F.setLoc t l t).pc.left < (F.loc t).pc.left := by
    intro a r m l s h hw
    obtain ⟨_, _, h2⟩ := micro_done (hF.loc t) h (a.upTo_refl r)
    rcases h2 with ⟨h2, _⟩ | ⟨j, s, h2, h3⟩
    · exact absurd h2 hout
    have hl := (hw.loc t).leave j (by simp only [Fine.setLoc, if_pos]; exact h3)
    refine ⟨?_, ?_⟩
    · rcases hF.owner k t hk with h4 | ⟨s', h4⟩ <;> rw [h2] at h4 <;> cases h4
      exact hl.1
    · simp only [Fine.setLoc, if_pos]
      rw [h3, h2]
      cases s <;> simp [LockPc.left]
  cases h with
  | other hq ho h => exact absurd (ho t he) hout
  | connGo hc hp h => cases he; exact .inr (go h hF')
  | connDone hc hp h hr => cases he; exact .inr (done h hF')
  | callGo hp h => cases he; exact .inr (go h hF')
  | callDone hp h hr => cases he; exact .inr (done h hF')
  | @unlock u j hp =>
    cases he
    left
    rcases hF.owner k t hk with h4 | ⟨s', h4⟩ <;> rw [hp] at h4 <;> cases h4
    exact if_pos rfl

/-- Number of steps of a goroutine among the events. -/
def stepsOf (t : Tid) (tr : List FEv) : Nat := tr.countP fun e => e.by = some t

/-- A mutex is given back after at most three steps of its holder. -/
theorem Fine.Run.release {F F' : Fine} {tr : List FEv} (h : Fine.Run F tr F') (hF : F.WF) {k : Lock} {t : Tid} (hk : F.mem.locks k = some t)
    (hn : (F.loc t).pc.left ≤ stepsOf t tr) : ∃ t1 t2 F1, tr = t1 ++ t2 ∧ Fine.Run F t1 F1 ∧ Fine.Run F1 t2 F' ∧ F1.mem.locks k = none := by
  induction h with
  | nil =>
    rcases hF.owner k t hk with h | ⟨_ | s, h⟩ <;> rw [h] at hn <;> cases hn
  | @cons F F1 F2 e es h hs ih =>
    by_cases he : e.by = some t
    · rcases h.closer hF hk he with h1 | ⟨h1, h2⟩
      · exact ⟨[e], es, F1, rfl, .cons h (.nil _), hs, h1⟩
      · obtain ⟨t1, t2, F3, rfl, h3, h4, h5⟩ := ih (h.refines hF).1 h1 (by
          have : stepsOf t (e :: es) = stepsOf t es + 1 := by simp [stepsOf, he]
          omega)
        exact ⟨e :: t1, t2, F3, rfl, .cons h h3, h4, h5⟩
    · obtain ⟨h1, h2⟩ := (h.ext hF).1 t he
      obtain ⟨t1, t2, F3, rfl, h3, h4, h5⟩ := ih (h.refines hF).1 ((h2 k).2 hk) (by
        have : stepsOf t (e :: es) = stepsOf t es := by simp [stepsOf, he]
        rw [h1]; omega)
      exact ⟨e :: t1, t2, F3, rfl, .cons h h3, h4, h5⟩

/-! ### Schedules -/

/-- The goroutine a schedule entry is about. -/
def Pick.tid : Pick → Option Tid
  | .api i _ => some (.api i)
  | .run _ => none
  | .conn c => some (.conn c)
  | .recv c _ | .lost c | .probe c _ => some (.conn c)

/-- The goroutine that makes the step is not inside a function of the store. -/
def Fine.isOut (F : Fine) (e : SEv) : Bool := match e.by with
  | some t => (F.loc t).pc = .out
  | none => true

/-- A step that does not concern the store. -/
def Fine.pickQuiet (F : Fine) (p : Pick) : Option (FEv × Fine) :=
  match F.sys.pick p with
  | none => none
  | some (e, s) => if e.quiet && F.isOut e then some (.sys e, { F with sys := s }) else none

/-- One access of a goroutine whose next action is on the store. -/
def Fine.pickMicro (F : Fine) (t : Tid) (a : Act) (f : a.Resp → Prog Unit) : Option (FEv × Fine) :=
  match micro t a F.mem (F.loc t) with
  | .blocked => none
  | .go m l => some (.mem t, { F with mem := m, loc := F.setLoc t l })
  | .done r m l => match t with
    | .conn c => match F.sys.conns[c]? with
      | some k => some (.sys (.conn c a r),
          { sys := (F.sys.setView k.ctx (F.sys.view k.ctx)).setConn c { k with pc := .body (f r) }, mem := m, loc := F.setLoc (.conn c) l })
      | none => none
    | .api i => some (.sys (.call i a r), { sys := F.sys.setApi i (.call (f r)), mem := m, loc := F.setLoc (.api i) l })

/-- Lets the goroutine of a schedule entry make one step. -/
def Fine.pick (F : Fine) (p : Pick) : Option (FEv × Fine) :=
  match p.tid with
  | none => F.pickQuiet p
  | some t => match (F.loc t).pc with
    | .leave k => some (.mem t, { F with mem := F.mem.setLock k none, loc := F.setLoc t ((F.loc t).goto .out) })
    | _ => match F.sys.prog t with
      | some (.act a f) => if a.onStore then F.pickMicro t a f else F.pickQuiet p
      | _ => F.pickQuiet p

def Fine.play : List Pick → Fine → Option (List FEv × Fine)
  | [], F => some ([], F)
  | p :: ps, F => match F.pick p with
    | none => none
    | some (e, F1) => match play ps F1 with
      | none => none
      | some (es, F2) => some (e :: es, F2)

theorem Fine.pickQuiet_sound {F F' : Fine} {p : Pick} {e : FEv} (h : F.pickQuiet p = some (e, F')) : Fine.Step F e F' := by
  unfold Fine.pickQuiet at h
  split at h
  · cases h
  · next e s hs =>
    split at h
    · next hq =>
      cases h
      simp only [Bool.and_eq_true] at hq
      refine .other hq.1 (fun t ht => ?_) (Sys.pick_sound hs)
      have := hq.2
      simpa [Fine.isOut, ht] using this
    · cases h

theorem Fine.pick_sound {F F' : Fine} {p : Pick} {e : FEv} (h : F.pick p = some (e, F')) : Fine.Step F e F' := by
  unfold Fine.pick at h
  split at h
  · exact pickQuiet_sound h
  · next t ht =>
    split at h
    · next k hk => cases h; exact .unlock hk
    · split at h
      · next a f hp =>
        split at h
        · unfold Fine.pickMicro at h
          split at h
          · cases h
          · next m l hm =>
            cases h
            cases t with
            | conn c => obtain ⟨k, hc, hp⟩ := Sys.prog_conn.1 hp; exact .connGo hc hp hm
            | api i => exact .callGo (Sys.prog_api.1 hp) hm
          · next r m l hm =>
            cases t with
            | conn c =>
              obtain ⟨k, hc, hp⟩ := Sys.prog_conn.1 hp
              simp only [hc] at h
              cases h
              exact .connDone hc hp hm (a.upTo_refl r)
            | api i => cases h; exact .callDone (Sys.prog_api.1 hp) hm (a.upTo_refl r)
        · exact pickQuiet_sound h
      · exact pickQuiet_sound h

theorem Fine.play_sound {ps : List Pick} {F F' : Fine} {tr : List FEv} (h : Fine.play ps F = some (tr, F')) : Fine.Run F tr F' := by
  induction ps generalizing F tr with
  | nil => cases h; exact .nil _
  | cons p ps ih =>
    unfold Fine.play at h
    split at h
    · cases h
    · next e F1 h1 =>
      split at h
      · cases h
      · next es F2 h2 => cases h; exact .cons (pick_sound h1) (ih h2)

end KM
