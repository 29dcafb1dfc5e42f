import Verif.Props.Delivered
import Verif.Props.Ready
/-
Clients that connect to the mock, until their connections are served or closed: /repo/kafka-mock.go:117 (`net.Listen`), 129 (`Accept`), 137-144, 148-161, and 77 (`listener.Close()`).
Assumed of the operating system: while the socket is open it completes the connections of clients at once, keeps them in a queue, from which `Accept` takes the first, and resets those in the queue when the
socket is closed. Simplification: the queue has no limit.
-/
namespace KM
open Props

/-- Where a client that has connected is: in the queue of listener `g`; in the variable `connection` (line 129) of accept loop `g`; served by connection goroutine `c`; or its connection has been closed without being
served. -/
inductive Spot where
  | waiting (g : Nat)
  | held (g : Nat)
  | served (c : Nat)
  | shut (g : Nat)
deriving DecidableEq, Repr

/-- Where the clients are, in the order in which they have connected. -/
abbrev Desk := List Spot

/-- All clients that are at `p` go to `q`. -/
def Desk.move (d : Desk) (p q : Spot) : Desk := d.map fun x => if x = p then q else x

/-- `Accept` takes the client that has waited longest; it does not return when there is none. -/
def Desk.take (d : Desk) (g : Nat) : Option Desk := (d.findIdx? fun x => decide (x = .waiting g)).map fun x => d.set x (.held g)

/-- What accept loop `g` does with clients when it acts, /repo/kafka-mock.go:129-161. -/
def Desk.run (s : Sys) (g : Nat) (d : Desk) : Option Desk :=
  match (s.runs[g]?).map RunG.pc with
  | some .accept => if s.closes.contains g then some d else d.take g
  | some .select => some (if s.parentDone || s.ctx.any s.isDone then d.move (.held g) (.shut g) else d)
  | some .register => some (d.move (.held g) (.served s.conns.length))
  | _ => some d

/-- What caller `i` of exported functions does with clients when it acts: `listener.Close()`, /repo/kafka-mock.go:77. -/
def Desk.api (s : Sys) (i : Nat) (d : Desk) : Desk :=
  match s.api i, s.listener with
  | .stop .close _, some g => d.move (.waiting g) (.shut g)
  | _, _ => d

def Desk.next (s : Sys) : NEv → Desk → Option Desk
  | .mock (.life (.run g _)), d => d.run s g
  | .mock (.life (.api i _)), d => some (d.api s i)
  | _, d => some d

/-- The mock with its connections, and the clients. -/
structure Hub where
  net : Net
  desk : Desk

def Hub.new (sv : Server) (clock : Int) : Hub := ⟨Net.new sv clock, []⟩

inductive DEv where
  | net (e : NEv)
  /-- a client connects to the socket of accept loop `g` -/
  | connect (g : Nat)

inductive Hub.Step : Hub → DEv → Hub → Prop where
  | net {n n' : Net} {d d' : Desk} {e : NEv} (h : Net.Step n e n') (hd : Desk.next n.sys e d = some d') : Step ⟨n, d⟩ (.net e) ⟨n', d'⟩
  | connect {n : Net} {d : Desk} {g : Nat} (h : Listening g n.sys) : Step ⟨n, d⟩ (.connect g) ⟨n, d ++ [.waiting g]⟩

inductive Hub.Run : Hub → List DEv → Hub → Prop where
  | nil (h : Hub) : Run h [] h
  | cons {h h1 h2 : Hub} {e : DEv} {es : List DEv} (hs : Step h e h1) (hr : Run h1 es h2) : Run h (e :: es) h2

/-! ### What a step does -/

/-- Accept loop `g` has a client in its hands. -/
def holding (s : Sys) (g : Nat) : Prop := ∃ r, s.runs[g]? = some r ∧ (r.pc = .select ∨ r.pc = .lock ∨ r.pc = .register)

/-- The accept loops that have started the connections. -/
def gens (s : Sys) : List Nat := s.conns.map (·.gen)

/-- What a step of the mock has to do with the clients. -/
inductive Kind (s s' : Sys) (d d' : Desk) : Prop where
  | quiet (hd : d' = d) (hg : gens s' = gens s) (hh : ∀ g, holding s' g ↔ holding s g) (hc : s'.closes = s.closes)
  | taken (g x : Nat) (hx : d[x]? = some (.waiting g)) (hf : ∀ y, y < x → d[y]? ≠ some (.waiting g)) (hd : d' = d.set x (.held g)) (hg : gens s' = gens s)
      (h1 : ¬ holding s g) (h2 : holding s' g) (hh : ∀ g', g' ≠ g → (holding s' g' ↔ holding s g')) (hc : s'.closes = s.closes)
  | turned (g : Nat) (hd : d' = d.move (.held g) (.shut g)) (hg : gens s' = gens s) (h1 : holding s g) (h2 : ¬ holding s' g)
      (hh : ∀ g', g' ≠ g → (holding s' g' ↔ holding s g')) (hc : s'.closes = s.closes) (hdone : s.isDone g = true)
  | served (g : Nat) (hd : d' = d.move (.held g) (.served (gens s).length)) (hg : gens s' = gens s ++ [g]) (h1 : holding s g) (h2 : ¬ holding s' g)
      (hh : ∀ g', g' ≠ g → (holding s' g' ↔ holding s g')) (hc : s'.closes = s.closes)
  | reset (g : Nat) (hd : d' = d.move (.waiting g) (.shut g)) (hg : gens s' = gens s) (hh : ∀ g, holding s' g ↔ holding s g) (hc : s'.closes = g :: s.closes)

theorem runStep_closes {s s' : Sys} {g : Nat} {ok : Bool} (hn : s.runStep g ok = .ok s') : s'.closes = s.closes := by
  unfold Sys.runStep at hn
  split at hn
  · cases hn
  next r hr =>
    dsimp only at hn
    split at hn
    · split at hn <;> cases hn; rfl
    · cases hn; rfl
    · split at hn
      · next h => cases hn; unfold Sys.initDone at h; split at h <;> cases h <;> rfl
      · next h => exact absurd hn (h _)
    · split at hn
      · cases hn; rfl
      · split at hn <;> cases hn; rfl
    · cases hn; rfl
    · unfold Sys.lockMu at hn; split at hn <;> cases hn; rfl
    · cases hn; rfl
    · cases hn; rfl
    · cases hn; rfl
    · cases hn; rfl
    · split at hn <;> cases hn; rfl
    · cases hn; rfl
    · split at hn
      · next h => cases hn; unfold Sys.wgDone at h; split at h <;> cases h <;> rfl
      · next h => exact absurd hn (h _)
    · cases hn

theorem apiStep_closes {s s' : Sys} {i : Nat} {c : Call} (hn : s.apiStep i c = .ok s') :
    (∃ g b, s.api i = .stop .close b ∧ s.listener = some g ∧ s'.closes = g :: s.closes ∧ s'.runs = s.runs) ∨
      ((∀ b, s.api i = .stop .close b → s.listener = none) ∧ s'.closes = s.closes) := by
  have wt : ∀ {n : Nat} {k : WaitPc} {at' : WaitPc → ApiPc} {b : ApiPc}, s.waitStep i n k at' b = .ok s' → s'.closes = s.closes := by
    intro n k at' b hn
    cases k <;> simp only [Sys.waitStep, reduceCtorEq, Out.ok.injEq] at hn <;> subst hn <;> rfl
  unfold Sys.apiStep at hn
  split at hn
  · next h => cases hn; exact .inr ⟨fun b e => by (rw [h] at e; cases e), rfl⟩
  · next h => cases hn; exact .inr ⟨fun b e => by (rw [h] at e; cases e), rfl⟩
  · next k r h =>
    refine .inr ⟨fun b e => by (rw [h] at e; cases e), ?_⟩
    cases k <;> simp only [Sys.startStep, Sys.lockMu] at hn
    · split at hn <;> cases hn; rfl
    · split at hn <;> cases hn <;> rfl
    all_goals (cases hn; rfl)
  · next k b h =>
    cases k with
    | close =>
      simp only [Sys.stopStep] at hn
      split at hn
      · next g hg => cases hn; exact .inl ⟨g, b, h, hg, rfl, rfl⟩
      · next hg => cases hn; exact .inr ⟨fun _ _ => hg, rfl⟩
    | init k => exact .inr ⟨fun b e => by (rw [h] at e; cases e), wt (by simpa only [Sys.stopStep] using hn)⟩
    | swap => cases hn; exact .inr ⟨fun b e => by (rw [h] at e; cases e), rfl⟩
    | load => cases hn; exact .inr ⟨fun b e => by (rw [h] at e; cases e), rfl⟩
    | lock =>
      refine .inr ⟨fun b e => by (rw [h] at e; cases e), ?_⟩
      simp only [Sys.stopStep, Sys.lockMu] at hn
      split at hn <;> cases hn; rfl
    | unlock => cases hn; exact .inr ⟨fun b e => by (rw [h] at e; cases e), rfl⟩
    | cancel =>
      refine .inr ⟨fun b e => by (rw [h] at e; cases e), ?_⟩
      simp only [Sys.stopStep] at hn
      split at hn <;> cases hn <;> rfl
  · next h => exact .inr ⟨fun b e => by (rw [h] at e; cases e), wt hn⟩
  · next h => exact .inr ⟨fun b e => by (rw [h] at e; cases e), wt hn⟩
  · next h =>
    refine .inr ⟨fun b e => by (rw [h] at e; cases e), ?_⟩
    split at hn <;> cases hn <;> rfl
  · next h => cases hn; exact .inr ⟨fun b e => by (rw [h] at e; cases e), rfl⟩
  · cases hn
  · cases hn

theorem connStep_closes {s s' : Sys} {c : Nat} (hn : s.connStep c = .ok s') : s'.closes = s.closes := by
  unfold Sys.connStep at hn
  split at hn
  · cases hn
  next k hk =>
    dsimp only at hn
    split at hn
    all_goals first
      | (cases hn; done)
      | (cases hn; rfl)
      | (unfold Sys.lockMu at hn; split at hn <;> cases hn; rfl)
      | skip
    all_goals (split at hn <;> first
      | (cases hn; rfl)
      | (next h => cases hn; unfold Sys.activeDone at h; split at h <;> cases h <;> rfl)
      | (next h => cases hn; unfold Sys.wgDone at h; split at h <;> cases h <;> rfl)
      | (next h => exact absurd hn (h _))
      | cases hn)

theorem gens_set {s s' : Sys} {c : Nat} {k : ConnG} {pc : ConnPc} (hk : s.conns[c]? = some k) (h : s'.conns = s.conns.set c { k with pc := pc }) : gens s' = gens s := by
  unfold gens
  rw [h, List.map_set]
  refine List.ext_getElem? fun n => ?_
  by_cases e : c = n
  · subst e
    have hlt := (List.getElem?_eq_some_iff.1 hk).1
    rw [List.getElem?_set_self (by simpa using hlt), List.getElem?_map, hk]
    rfl
  · rw [List.getElem?_set_ne e]

theorem holding_same {s s' : Sys} (h : s'.runs = s.runs ∨ s'.runs = s.runs ++ [⟨.listen, 0⟩]) (g : Nat) : holding s' g ↔ holding s g := by
  unfold holding
  rcases h with h | h <;> rw [h]
  by_cases hl : g < s.runs.length
  · rw [List.getElem?_append_left hl]
  · rw [List.getElem?_append_right (by omega), List.getElem?_eq_none_iff.2 (by omega : s.runs.length ≤ g)]
    constructor
    · rintro ⟨r, hr, hx⟩
      have := List.mem_of_getElem? hr
      rw [List.mem_singleton] at this
      subst this
      rcases hx with hx | hx | hx <;> cases hx
    · rintro ⟨r, hr, _⟩; cases hr

theorem holding_else {s s' : Sys} {g : Nat} {r' : RunG} (h : s'.runs = s.runs.set g r') (g' : Nat) (hg : g' ≠ g) : holding s' g' ↔ holding s g' := by
  unfold holding
  rw [h, List.getElem?_set_ne hg.symm]

theorem take_some {d d' : Desk} {g : Nat} (h : d.take g = some d') :
    ∃ x, d[x]? = some (.waiting g) ∧ (∀ y, y < x → d[y]? ≠ some (.waiting g)) ∧ d' = d.set x (.held g) := by
  unfold Desk.take at h
  cases hf : d.findIdx? (fun x => decide (x = .waiting g)) with
  | none => rw [hf] at h; cases h
  | some x =>
    rw [hf] at h
    cases h
    obtain ⟨h1, h2, h3⟩ := List.findIdx?_eq_some_iff_getElem.1 hf
    refine ⟨x, ?_, fun y hy e => ?_, rfl⟩
    · rw [List.getElem?_eq_getElem h1]; simpa using h2
    · have := h3 y hy
      rw [List.getElem?_eq_getElem (by omega), Option.some.injEq] at e
      simp [e] at this

/-- What a step of the mock has to do with the clients. -/
theorem desk_kind {n n' : Net} {d d' : Desk} {e : NEv} (hi : CtxInv n.sys) (h : Net.Step n e n') (hd : Desk.next n.sys e d = some d') : Kind n.sys n'.sys d d' := by
  cases h with
  | send => cases hd; exact .quiet rfl rfl (fun _ => Iff.rfl) rfl
  | receive => cases hd; exact .quiet rfl rfl (fun _ => Iff.rfl) rfl
  | @mock e s' L h hl =>
    show Kind n.sys s' d d'
    revert hd
    generalize n.sys = s at h hi
    intro hd
    have calm : s'.runs = s.runs → gens s' = gens s → s'.closes = s.closes → d' = d → Kind s s' d d' := fun h1 h2 h3 h4 => .quiet h4 h2 (holding_same (.inl h1)) h3
    cases h with
    | @life _ ch hn =>
      cases ch with
      | api i c =>
        have hd : some (d.api s i) = some d' := hd
        have hd := Option.some.inj hd
        have hg : gens s' = gens s := by unfold gens; rw [apiStep_conns hn]
        rcases apiStep_closes hn with ⟨g, b, h1, h2, h3, h4⟩ | ⟨h1, h2⟩
        · refine .reset g ?_ hg (holding_same (.inl h4)) h3
          rw [← hd]; unfold Desk.api; rw [h1, h2]
        · refine .quiet ?_ hg (holding_same (apiStep_runs hn)) h2
          rw [← hd]; unfold Desk.api
          split
          · next h3 h4 => rw [h1 _ h3] at h4; cases h4
          · rfl
      | run g ok =>
        have hd : d.run s g = some d' := hd
        have hc := runStep_closes hn
        obtain ⟨r, r', h1, h2, h3⟩ := runStep_runs hn
        have he := holding_else h3
        have hlt := (List.getElem?_eq_some_iff.1 h1).1
        have h4 : s'.runs[g]? = some r' := by rw [h3]; exact List.getElem?_set_self hlt
        have hold : holding s g ↔ (r.pc = .select ∨ r.pc = .lock ∨ r.pc = .register) := ⟨fun ⟨x, a, b⟩ => by (rw [h1] at a; cases a; exact b), fun b => ⟨r, h1, b⟩⟩
        have hold' : holding s' g ↔ (r'.pc = .select ∨ r'.pc = .lock ∨ r'.pc = .register) := ⟨fun ⟨x, a, b⟩ => by (rw [h4] at a; cases a; exact b), fun b => ⟨r', h4, b⟩⟩
        have all : (holding s' g ↔ holding s g) → ∀ g', holding s' g' ↔ holding s g' := fun h g' => by
          by_cases e : g' = g
          · rw [e]; exact h
          · exact he g' e
        have hg : r.pc ≠ .register → gens s' = gens s := fun hx => by
          rcases runStep_conns hn with e | ⟨r0, e0, e1, _⟩
          · unfold gens; rw [e]
          · rw [h1] at e0; cases e0; exact absurd e1 hx
        have hp' := h2.1
        unfold Desk.run at hd
        rw [h1] at hd
        by_cases c1 : r.pc = .accept
        · simp only [Option.map_some, c1] at hd
          simp only [Sys.next, Sys.runStep, h1, c1] at hn
          by_cases hx : s.closes.contains g
          · rw [if_pos hx] at hd hn
            cases hn
            refine .quiet (Option.some.inj hd).symm (hg (by rw [c1]; nofun)) (all ?_) hc
            rw [hold, hold', c1]
            have : r' = { r with pc := .waitActive } := by
              have h5 : (s.setRun g { r with pc := .waitActive }).runs[g]? = some { r with pc := .waitActive } := List.getElem?_set_self hlt
              rw [h5] at h4; exact (Option.some.inj h4).symm
            rw [this]; simp
          · rw [if_neg hx] at hd hn
            split at hn
            · cases hn
              obtain ⟨x, x1, x2, x3⟩ := take_some hd
              refine .taken g x x1 x2 x3 (hg (by rw [c1]; nofun)) (by rw [hold, c1]; decide) ?_ he hc
              have : r' = { r with pc := .select } := by
                have h5 : (s.setRun g { r with pc := .select }).runs[g]? = some { r with pc := .select } := List.getElem?_set_self hlt
                rw [h5] at h4; exact (Option.some.inj h4).symm
              rw [hold', this]; exact .inl rfl
            · cases hn
        by_cases c2 : r.pc = .select
        · simp only [Option.map_some, c2, Option.some.injEq] at hd
          simp only [Sys.next, Sys.runStep, h1, c2, Out.ok.injEq] at hn
          have h5 : r' = { r with pc := if s.parentDone || s.ctx.any s.isDone then .accept else .lock } := by
            rw [← hn] at h4
            have h5 : ∀ x, (s.setRun g x).runs[g]? = some x := fun x => List.getElem?_set_self hlt
            rw [h5] at h4; exact (Option.some.inj h4).symm
          by_cases hx : (s.parentDone || s.ctx.any s.isDone) = true
          · rw [if_pos hx] at hd h5
            refine .turned g hd.symm (hg (by rw [c2]; nofun)) (by rw [hold]; exact .inl c2) (by rw [hold', h5]; simp) he hc ?_
            have := hi.run g r h1 (by rw [c2]; rfl)
            rw [this] at hx
            simp only [Option.any_some, Sys.isDone, Bool.or_eq_true] at hx ⊢
            rcases hx with hx | hx
            · exact .inl hx
            · exact hx
          · rw [if_neg hx] at hd h5
            exact .quiet hd.symm (hg (by rw [c2]; nofun)) (all (by rw [hold, hold', h5, c2]; simp)) hc
        by_cases c3 : r.pc = .register
        · simp only [Option.map_some, c3, Option.some.injEq] at hd
          rw [c3] at hp'
          simp only [RunPc.next, List.mem_cons, List.not_mem_nil, or_false] at hp'
          refine .served g ?_ ?_ (by rw [hold]; exact .inr (.inr c3)) (by rw [hold', hp']; decide) he hc
          · rw [← hd]; simp [gens]
          · rcases runStep_conns hn with e | ⟨r0, e0, e1, e2⟩
            · exfalso
              simp only [Sys.next, Sys.runStep, h1, c3, Out.ok.injEq] at hn
              rw [← hn] at e
              have := congrArg List.length e
              simp at this
            · unfold gens; rw [e2]; simp
        · have : d' = d := by
            simp only [Option.map_some] at hd
            split at hd
            · next h => exact absurd (Option.some.inj h) c1
            · next h => exact absurd (Option.some.inj h) c2
            · next h => exact absurd (Option.some.inj h) c3
            · exact (Option.some.inj hd).symm
          refine .quiet this (hg c3) (all ?_) hc
          rw [hold, hold']
          revert hp' c1 c2 c3
          generalize r.pc = pc; generalize r'.pc = pc'
          intro hp' c1 c2 c3
          cases pc <;> simp only [RunPc.next, List.mem_cons, List.not_mem_nil, or_false] at hp' <;> first
            | (subst hp'; decide)
            | exact absurd rfl c1
            | exact absurd rfl c2
            | exact absurd rfl c3
      | conn c =>
        have hd : some d = some d' := hd
        obtain ⟨k, k', e1, e2, e3⟩ := connStep_conns hn
        refine calm (connStep_runs hn) ?_ (connStep_closes hn) (Option.some.inj hd).symm
        have := (Sys.Step.life (c := .conn c) hn).shape
        generalize SEv.life (.conn c) = e at this
        have hr := connStep_runs hn
        cases this with
        | quiet hc => unfold gens; rw [hc]
        | reset _ _ _ hc => unfold gens; rw [hc]
        | loop _ _ _ _ _ _ _ hc => unfold gens; rw [hc]
        | register g r hg hp hr' _ _ =>
          exfalso
          rw [hr] at hr'
          have := congrArg (·[g]?) hr'
          simp only [hg, List.getElem?_set_self (List.getElem?_eq_some_iff.1 hg).1, Option.some.injEq] at this
          rw [this] at hp; cases hp
        | conn c k pc hk _ _ hc => exact gens_set hk hc
        | delete c k r hk _ _ hc => exact gens_set hk hc
      | parentCancel => cases hn; exact calm rfl rfl rfl (Option.some.inj hd).symm
    | @conn c k a f r w hc hp ha => exact calm rfl (gens_set hc rfl) rfl (Option.some.inj hd).symm
    | @unroll c k _ _ _ _ _ hc hp' => exact calm rfl (gens_set hc rfl) rfl (Option.some.inj hd).symm
    | call => exact calm rfl rfl rfl (Option.some.inj hd).symm
    | tick => exact calm rfl rfl rfl (Option.some.inj hd).symm

/-! ### Where the clients are -/

theorem move_of {d : Desk} {p q a : Spot} {x : Nat} (h : d[x]? = some a) : (d.move p q)[x]? = some (if a = p then q else a) := by
  unfold Desk.move; rw [List.getElem?_map, h]; rfl

theorem move_back {d : Desk} {p q a : Spot} {x : Nat} (h : (d.move p q)[x]? = some a) : (d[x]? = some p ∧ a = q) ∨ (d[x]? = some a ∧ a ≠ p) := by
  unfold Desk.move at h
  rw [List.getElem?_map] at h
  cases hx : d[x]? with
  | none => rw [hx] at h; cases h
  | some b =>
    rw [hx] at h
    simp only [Option.map_some, Option.some.injEq] at h
    split at h
    · next e => subst e h; exact .inl ⟨rfl, rfl⟩
    · next e => subst h; exact .inr ⟨rfl, e⟩

theorem set_back {d : Desk} {a b : Spot} {x y : Nat} (h : (d.set x b)[y]? = some a) : (y = x ∧ a = b) ∨ (y ≠ x ∧ d[y]? = some a) := by
  by_cases e : x = y
  · subst e
    have hlt := (List.getElem?_eq_some_iff.1 h).1
    rw [List.length_set] at hlt
    rw [List.getElem?_set_self hlt] at h
    exact .inl ⟨rfl, (Option.some.inj h).symm⟩
  · rw [List.getElem?_set_ne e] at h
    exact .inr ⟨fun e' => e e'.symm, h⟩

theorem append_back {d : Desk} {a b : Spot} {y : Nat} (h : (d ++ [b])[y]? = some a) : (y = d.length ∧ a = b) ∨ (y < d.length ∧ d[y]? = some a) := by
  by_cases e : y < d.length
  · rw [List.getElem?_append_left e] at h; exact .inr ⟨e, h⟩
  · rw [List.getElem?_append_right (by omega)] at h
    have := (List.getElem?_eq_some_iff.1 h).1
    simp only [List.length_cons, List.length_nil] at this
    have hy : y = d.length := by omega
    subst hy
    simp only [Nat.sub_self, List.getElem?_cons_zero, Option.some.injEq] at h
    exact .inl ⟨rfl, h.symm⟩

/-- What holds of the clients at all times. -/
structure DeskInv (s : Sys) (d : Desk) : Prop where
  waits : ∀ {x g : Nat}, d[x]? = some (.waiting g) → Listening g s
  held : ∀ {x g : Nat}, d[x]? = some (.held g) → holding s g
  one : ∀ {x y g : Nat}, d[x]? = some (.held g) → d[y]? = some (.held g) → x = y
  holds : ∀ {g : Nat}, holding s g → ∃ x : Nat, d[x]? = some (.held g)
  served : ∀ {x c : Nat}, d[x]? = some (.served c) → c < (gens s).length
  once : ∀ {x y c : Nat}, d[x]? = some (.served c) → d[y]? = some (.served c) → x = y
  each : ∀ {c : Nat}, c < (gens s).length → ∃ x : Nat, d[x]? = some (.served c)
  order_waits : ∀ {x y g : Nat}, x < y → d[x]? = some (.waiting g) → d[y]? ≠ some (.held g) ∧ ∀ {c : Nat}, d[y]? = some (.served c) → (gens s)[c]? ≠ some g
  order_held : ∀ {x y g c : Nat}, x < y → d[x]? = some (.held g) → d[y]? = some (.served c) → (gens s)[c]? ≠ some g
  order : ∀ {x y c c' : Nat}, x < y → d[x]? = some (.served c) → d[y]? = some (.served c') → (gens s)[c]? = (gens s)[c']? → c < c'
  shut : ∀ {x g : Nat}, d[x]? = some (.shut g) → g ∈ s.closes ∨ s.isDone g = true

theorem DeskInv.new (sv : Server) (clock : Int) : DeskInv (Sys.new sv clock) [] where
  waits := nofun
  held := nofun
  one := nofun
  holds := by rintro g ⟨r, hr, _⟩; cases hr
  served := nofun
  once := nofun
  each := by intro c hc; cases hc
  order_waits := nofun
  order_held := nofun
  order := nofun
  shut := nofun

theorem DeskInv.connect {s : Sys} {d : Desk} (h : DeskInv s d) {g : Nat} (hl : Listening g s) : DeskInv s (d ++ [.waiting g]) := by
  have fwd : ∀ {x : Nat} {a : Spot}, d[x]? = some a → (d ++ [Spot.waiting g])[x]? = some a := fun hx => by
    rw [List.getElem?_append_left (List.getElem?_eq_some_iff.1 hx).1]; exact hx
  have old : ∀ {x : Nat} {a : Spot}, (d ++ [Spot.waiting g])[x]? = some a → a ≠ .waiting g → d[x]? = some a := fun hx ha => by
    rcases append_back hx with ⟨_, e⟩ | ⟨_, e⟩
    · exact absurd e ha
    · exact e
  constructor
  · intro x g' hx
    rcases append_back hx with ⟨_, e⟩ | ⟨_, e⟩
    · cases e; exact hl
    · exact h.waits e
  · intro x g' hx; exact h.held (old hx nofun)
  · intro x y g' hx hy; exact h.one (old hx nofun) (old hy nofun)
  · intro g' hg; obtain ⟨x, hx⟩ := h.holds hg; exact ⟨x, fwd hx⟩
  · intro x c hx; exact h.served (old hx nofun)
  · intro x y c hx hy; exact h.once (old hx nofun) (old hy nofun)
  · intro c hc; obtain ⟨x, hx⟩ := h.each hc; exact ⟨x, fwd hx⟩
  · intro x y g' hxy hx
    have hlt : ∀ {a : Spot}, a ≠ .waiting g → (d ++ [Spot.waiting g])[y]? = some a → d[y]? = some a ∧ d[x]? = some (.waiting g') := fun ha hy => by
      have hy := old hy ha
      have := (List.getElem?_eq_some_iff.1 hy).1
      rcases append_back hx with ⟨e, _⟩ | ⟨_, e⟩
      · omega
      · exact ⟨hy, e⟩
    refine ⟨fun hy => ?_, fun {c} hy => ?_⟩
    · obtain ⟨h1, h2⟩ := hlt (a := .held g') nofun hy; exact (h.order_waits hxy h2).1 h1
    · obtain ⟨h1, h2⟩ := hlt (a := .served c) nofun hy; exact (h.order_waits hxy h2).2 h1
  · intro x y g' c hxy hx hy; exact h.order_held hxy (old hx nofun) (old hy nofun)
  · intro x y c c' hxy hx hy; exact h.order hxy (old hx nofun) (old hy nofun)
  · intro x g' hx; exact h.shut (old hx nofun)

theorem gens_append {s s' : Sys} {g c : Nat} (h : gens s' = gens s ++ [g]) (hc : c < (gens s).length) : (gens s')[c]? = (gens s)[c]? := by
  rw [h, List.getElem?_append_left hc]

theorem DeskInv.step {s s' : Sys} {d d' : Desk} (h : DeskInv s d) (hk : Kind s s' d d') (hl : ∀ g : Nat, (∃ r, s.runs[g]? = some r ∧ r.pc ≠ .listen) → ∃ r, s'.runs[g]? = some r ∧ r.pc ≠ .listen)
    (hd : ∀ g, s.isDone g = true → s'.isDone g = true) : DeskInv s' d' := by
  have lis : ∀ {g : Nat}, s'.closes = s.closes → Listening g s → Listening g s' := fun hc hx => ⟨hl _ hx.1, by rw [hc]; exact hx.2⟩
  cases hk with
  | quiet e hg hh hc =>
    subst e
    constructor
    · intro x g hx; exact lis hc (h.waits hx)
    · intro x g hx; exact (hh g).2 (h.held hx)
    · exact h.one
    · intro g hx; exact h.holds ((hh g).1 hx)
    · rw [hg]; exact h.served
    · exact h.once
    · rw [hg]; exact h.each
    · rw [hg]; exact h.order_waits
    · rw [hg]; exact h.order_held
    · rw [hg]; exact h.order
    · intro x g hx; rw [hc]; exact (h.shut hx).imp id (hd g)
  | taken g x hx hf e hg h1 h2 hh hc =>
    have hlt := (List.getElem?_eq_some_iff.1 hx).1
    subst e
    have old : ∀ {y : Nat} {a : Spot}, (d.set x (.held g))[y]? = some a → a ≠ .held g → y ≠ x ∧ d[y]? = some a := fun hy ha => by
      rcases set_back hy with ⟨_, e⟩ | e
      · exact absurd e ha
      · exact e
    have fwd : ∀ {y : Nat} {a : Spot}, d[y]? = some a → a ≠ .waiting g → (d.set x (.held g))[y]? = some a := fun {y a} hy ha => by
      rw [List.getElem?_set_ne]
      · exact hy
      · rintro rfl; rw [hx] at hy; cases hy; exact ha rfl
    have free : ∀ {y : Nat}, d[y]? ≠ some (.held g) := fun hy => h1 (h.held hy)
    constructor
    · intro y g' hy; exact lis hc (h.waits (old hy nofun).2)
    · intro y g' hy
      rcases set_back hy with ⟨_, e⟩ | ⟨_, e⟩
      · cases e; exact h2
      · refine (hh g' ?_).2 (h.held e)
        rintro rfl; exact free e
    · intro y z g' hy hz
      by_cases e : g' = g
      · subst e
        rcases set_back hy with ⟨a, _⟩ | ⟨_, a⟩
        · rcases set_back hz with ⟨b, _⟩ | ⟨_, b⟩
          · rw [a, b]
          · exact absurd b free
        · exact absurd a free
      · exact h.one (old hy (by intro x; cases x; exact e rfl)).2 (old hz (by intro x; cases x; exact e rfl)).2
    · intro g' hg'
      by_cases e : g' = g
      · subst e; exact ⟨x, List.getElem?_set_self hlt⟩
      · obtain ⟨y, hy⟩ := h.holds ((hh g' e).1 hg')
        exact ⟨y, fwd hy nofun⟩
    · intro y c hy; rw [hg]; exact h.served (old hy nofun).2
    · intro y z c hy hz; exact h.once (old hy nofun).2 (old hz nofun).2
    · intro c hc'; rw [hg] at hc'; obtain ⟨y, hy⟩ := h.each hc'; exact ⟨y, fwd hy nofun⟩
    · intro y z g' hyz hy
      replace hy := (old hy nofun).2
      refine ⟨fun hz => ?_, fun {c} hz => ?_⟩
      · rcases set_back hz with ⟨a, b⟩ | ⟨_, a⟩
        · cases b; subst a; exact hf y hyz hy
        · exact (h.order_waits hyz hy).1 a
      · rw [hg]; exact (h.order_waits hyz hy).2 (old hz nofun).2
    · intro y z g' c hyz hy hz
      rw [hg]
      rcases set_back hy with ⟨a, b⟩ | ⟨_, a⟩
      · cases b; subst a; exact (h.order_waits hyz hx).2 (old hz nofun).2
      · exact h.order_held hyz a (old hz nofun).2
    · intro y z c c' hyz hy hz; rw [hg]; exact h.order hyz (old hy nofun).2 (old hz nofun).2
    · intro y g' hy; rw [hc]; exact (h.shut (old hy nofun).2).imp id (hd g')
  | turned g e hg h1 h2 hh hc hdone =>
    subst e
    have old : ∀ {y : Nat} {a : Spot}, (d.move (.held g) (.shut g))[y]? = some a → a ≠ .shut g → d[y]? = some a ∧ a ≠ .held g := fun hy ha => by
      rcases move_back hy with ⟨_, e⟩ | e
      · exact absurd e ha
      · exact e
    have fwd : ∀ {y : Nat} {a : Spot}, d[y]? = some a → a ≠ .held g → (d.move (.held g) (.shut g))[y]? = some a := fun {y a} hy ha => by
      rw [move_of hy, if_neg ha]
    constructor
    · intro y g' hy; exact lis hc (h.waits (old hy nofun).1)
    · intro y g' hy
      obtain ⟨a, b⟩ := old hy nofun
      exact (hh g' (by rintro rfl; exact b rfl)).2 (h.held a)
    · intro y z g' hy hz; exact h.one (old hy nofun).1 (old hz nofun).1
    · intro g' hg'
      have e : g' ≠ g := by rintro rfl; exact h2 hg'
      obtain ⟨y, hy⟩ := h.holds ((hh g' e).1 hg')
      exact ⟨y, fwd hy (by intro x; cases x; exact e rfl)⟩
    · intro y c hy; rw [hg]; exact h.served (old hy nofun).1
    · intro y z c hy hz; exact h.once (old hy nofun).1 (old hz nofun).1
    · intro c hc'; rw [hg] at hc'; obtain ⟨y, hy⟩ := h.each hc'; exact ⟨y, fwd hy nofun⟩
    · intro y z g' hyz hy
      have hy := (old hy nofun).1
      exact ⟨fun hz => (h.order_waits hyz hy).1 (old hz nofun).1, fun {c} hz => by rw [hg]; exact (h.order_waits hyz hy).2 (old hz nofun).1⟩
    · intro y z g' c hyz hy hz; rw [hg]; exact h.order_held hyz (old hy nofun).1 (old hz nofun).1
    · intro y z c c' hyz hy hz; rw [hg]; exact h.order hyz (old hy nofun).1 (old hz nofun).1
    · intro y g' hy
      rcases move_back hy with ⟨_, e⟩ | ⟨e, _⟩
      · cases e; exact .inr (hd g hdone)
      · rw [hc]; exact (h.shut e).imp id (hd g')
  | served g e hg h1 h2 hh hc =>
    subst e
    obtain ⟨x0, hx0⟩ := h.holds h1
    have hlast : (gens s')[(gens s).length]? = some g := by rw [hg]; simp
    have old : ∀ {y : Nat} {a : Spot}, (d.move (.held g) (.served (gens s).length))[y]? = some a → a ≠ .served (gens s).length → d[y]? = some a ∧ a ≠ .held g := fun hy ha => by
      rcases move_back hy with ⟨_, e⟩ | e
      · exact absurd e ha
      · exact e
    have olds : ∀ {y c : Nat}, (d.move (.held g) (.served (gens s).length))[y]? = some (.served c) →
        (d[y]? = some (.held g) ∧ c = (gens s).length) ∨ (d[y]? = some (.served c) ∧ c < (gens s).length) := fun hy => by
      rcases move_back hy with ⟨a, e⟩ | ⟨a, _⟩
      · cases e; exact .inl ⟨a, rfl⟩
      · exact .inr ⟨a, h.served a⟩
    have fwd : ∀ {y : Nat} {a : Spot}, d[y]? = some a → a ≠ .held g → (d.move (.held g) (.served (gens s).length))[y]? = some a := fun {y a} hy ha => by
      rw [move_of hy, if_neg ha]
    constructor
    · intro y g' hy; exact lis hc (h.waits (old hy nofun).1)
    · intro y g' hy
      obtain ⟨a, b⟩ := old hy nofun
      exact (hh g' (by rintro rfl; exact b rfl)).2 (h.held a)
    · intro y z g' hy hz; exact h.one (old hy nofun).1 (old hz nofun).1
    · intro g' hg'
      have e : g' ≠ g := by rintro rfl; exact h2 hg'
      obtain ⟨y, hy⟩ := h.holds ((hh g' e).1 hg')
      exact ⟨y, fwd hy (by intro x; cases x; exact e rfl)⟩
    · intro y c hy
      rw [hg, List.length_append]
      rcases olds hy with ⟨_, e⟩ | ⟨_, e⟩
      · rw [e]; simp
      · simp; omega
    · intro y z c hy hz
      rcases olds hy with ⟨a, b⟩ | ⟨a, b⟩ <;> rcases olds hz with ⟨a', b'⟩ | ⟨a', b'⟩
      · exact h.one a a'
      · omega
      · omega
      · exact h.once a a'
    · intro c hc'
      rw [hg, List.length_append] at hc'
      simp only [List.length_cons, List.length_nil] at hc'
      by_cases e : c < (gens s).length
      · obtain ⟨y, hy⟩ := h.each e; exact ⟨y, fwd hy nofun⟩
      · have : c = (gens s).length := by omega
        subst this
        exact ⟨x0, by rw [move_of hx0, if_pos rfl]⟩
    · intro y z g' hyz hy
      have hy := (old hy nofun).1
      refine ⟨fun hz => (h.order_waits hyz hy).1 (old hz nofun).1, fun {c} hz => ?_⟩
      rcases olds hz with ⟨a, b⟩ | ⟨a, b⟩
      · subst b
        rw [hlast]
        intro e
        cases e
        exact (h.order_waits hyz hy).1 a
      · rw [gens_append hg b]; exact (h.order_waits hyz hy).2 a
    · intro y z g' c hyz hy hz
      obtain ⟨hy, hne⟩ := old hy nofun
      rcases olds hz with ⟨a, b⟩ | ⟨a, b⟩
      · subst b
        rw [hlast]
        intro e
        cases e
        exact hne rfl
      · rw [gens_append hg b]; exact h.order_held hyz hy a
    · intro y z c c' hyz hy hz
      rcases olds hy with ⟨a, b⟩ | ⟨a, b⟩ <;> rcases olds hz with ⟨a', b'⟩ | ⟨a', b'⟩
      · have := h.one a a'; omega
      · subst b
        rw [hlast, gens_append hg b']
        intro e
        exact absurd e.symm (h.order_held hyz a a')
      · intro _; omega
      · rw [gens_append hg b, gens_append hg b']; exact h.order hyz a a'
    · intro y g' hy; rw [hc]; exact (h.shut (old hy nofun).1).imp id (hd g')
  | reset g e hg hh hc =>
    subst e
    have old : ∀ {y : Nat} {a : Spot}, (d.move (.waiting g) (.shut g))[y]? = some a → a ≠ .shut g → d[y]? = some a ∧ a ≠ .waiting g := fun hy ha => by
      rcases move_back hy with ⟨_, e⟩ | e
      · exact absurd e ha
      · exact e
    have fwd : ∀ {y : Nat} {a : Spot}, d[y]? = some a → a ≠ .waiting g → (d.move (.waiting g) (.shut g))[y]? = some a := fun {y a} hy ha => by
      rw [move_of hy, if_neg ha]
    constructor
    · intro y g' hy
      obtain ⟨a, b⟩ := old hy nofun
      have := h.waits a
      refine ⟨hl _ this.1, ?_⟩
      rw [hc, List.mem_cons, not_or]
      exact ⟨by rintro rfl; exact b rfl, this.2⟩
    · intro y g' hy; exact (hh g').2 (h.held (old hy nofun).1)
    · intro y z g' hy hz; exact h.one (old hy nofun).1 (old hz nofun).1
    · intro g' hg'
      obtain ⟨y, hy⟩ := h.holds ((hh g').1 hg')
      exact ⟨y, fwd hy nofun⟩
    · intro y c hy; rw [hg]; exact h.served (old hy nofun).1
    · intro y z c hy hz; exact h.once (old hy nofun).1 (old hz nofun).1
    · intro c hc'; rw [hg] at hc'; obtain ⟨y, hy⟩ := h.each hc'; exact ⟨y, fwd hy nofun⟩
    · intro y z g' hyz hy
      have hy := (old hy nofun).1
      exact ⟨fun hz => (h.order_waits hyz hy).1 (old hz nofun).1, fun {c} hz => by rw [hg]; exact (h.order_waits hyz hy).2 (old hz nofun).1⟩
    · intro y z g' c hyz hy hz; rw [hg]; exact h.order_held hyz (old hy nofun).1 (old hz nofun).1
    · intro y z c c' hyz hy hz; rw [hg]; exact h.order hyz (old hy nofun).1 (old hz nofun).1
    · intro y g' hy
      rw [hc]
      rcases move_back hy with ⟨_, e⟩ | ⟨e, _⟩
      · cases e; exact .inl List.mem_cons_self
      · exact (h.shut e).imp (List.mem_cons_of_mem _) (hd g')

theorem step_past_listen {s s' : Sys} {e : SEv} (h : Sys.Step s e s') {g : Nat} (hr : ∃ r, s.runs[g]? = some r ∧ r.pc ≠ .listen) : ∃ r, s'.runs[g]? = some r ∧ r.pc ≠ .listen := by
  obtain ⟨r, h1, h2⟩ := hr
  have hlt := (List.getElem?_eq_some_iff.1 h1).1
  rcases step_runs h with e | ⟨g', r1, r2, a, b, e⟩ | e
  · exact ⟨r, by rw [e]; exact h1, h2⟩
  · by_cases eq : g' = g
    · subst eq
      refine ⟨r2, by rw [e]; exact List.getElem?_set_self hlt, fun e2 => ?_⟩
      have := b.1
      rw [e2] at this
      revert this
      generalize r1.pc = pc
      intro this
      cases pc <;> simp [RunPc.next] at this
    · exact ⟨r, by rw [e, List.getElem?_set_ne eq]; exact h1, h2⟩
  · exact ⟨r, by rw [e, List.getElem?_append_left hlt]; exact h1, h2⟩

theorem Hub.Step.inv {h h' : Hub} {e : DEv} (hs : Hub.Step h e h') (hc : CtxInv h.net.sys) (hi : DeskInv h.net.sys h.desk) : DeskInv h'.net.sys h'.desk := by
  cases hs with
  | connect hl => exact hi.connect hl
  | net hn hd =>
    have hst := inMock_step hn
    exact hi.step (desk_kind hc hn hd) (fun g => step_past_listen hst) fun g => step_done hst

/-- What happens to the mock in a run with clients that connect: a client that connects changes nothing in it. -/
def ofHub : DEv → NEv
  | .net e => e
  | .connect _ => .send 0 []

theorem Hub.Step.proj {h h' : Hub} {e : DEv} (hs : Hub.Step h e h') : Net.Step h.net (ofHub e) h'.net := by
  cases hs with
  | net hn => exact hn
  | @connect n d g hl =>
    have := Net.Step.send (n := n) 0 []
    have e : ({ n with links := setLink n.links 0 { n.links 0 with up := (n.links 0).up ++ [] } } : Net) = n := by
      have : setLink n.links 0 { n.links 0 with up := (n.links 0).up ++ [] } = n.links := by
        funext c
        unfold setLink
        split
        · next e => rw [e]; simp
        · rfl
      rw [this]
    rw [e] at this
    exact this

theorem Hub.Run.proj {h h' : Hub} {tr : List DEv} (hr : Hub.Run h tr h') : Net.Run h.net (tr.map ofHub) h'.net := by
  induction hr with
  | nil => exact .nil _
  | cons hs _ ih => exact .cons hs.proj ih

theorem Hub.Run.inv {h h' : Hub} {tr : List DEv} (hr : Hub.Run h tr h') {tr0 : List SEv} {sv : Server} {clock : Int} (h0 : Sys.Run (Sys.new sv clock) tr0 h.net.sys)
    (hi : DeskInv h.net.sys h.desk) : DeskInv h'.net.sys h'.desk := by
  induction hr generalizing tr0 with
  | nil => exact hi
  | cons hs _ ih => exact ih (h0.append (.cons (inMock_step hs.proj) (.nil _))) (hs.inv h0.whole.2.2 hi)

end KM
