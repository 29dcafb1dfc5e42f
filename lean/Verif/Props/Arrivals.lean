import Verif.Dial
import Verif.Props.TestEnds
/-
C119: clients that connect to the mock are served, each by a connection of its own and in their order, unless the mock has been told to finish.
-/
namespace KM
namespace Props
open KM KM.Spec

/-! ### Every connection has a client -/

/-- **C119**, connections: each connection that the mock serves is that of one client, and each client is served by one connection at most. -/
theorem C119_one {sv : Server} {clock : Int} {tr : List DEv} {h : Hub} (hr : Hub.Run (Hub.new sv clock) tr h) :
    (∀ c, c < h.net.sys.conns.length → ∃ x : Nat, h.desk[x]? = some (.served c) ∧ ∀ y : Nat, h.desk[y]? = some (.served c) → y = x) ∧
      ∀ x c : Nat, h.desk[x]? = some (.served c) → c < h.net.sys.conns.length := by
  have hi := hr.inv (.nil _) (DeskInv.new sv clock)
  have hl : (gens h.net.sys).length = h.net.sys.conns.length := by simp [gens]
  refine ⟨fun c hc => ?_, fun x c hx => by rw [← hl]; exact hi.served hx⟩
  obtain ⟨x, hx⟩ := hi.each (by rw [hl]; exact hc)
  exact ⟨x, hx, fun y hy => hi.once hy hx⟩

/-- **C119**, order: of two clients of the same listener that are served, the one that connected first was served first; and while a client waits, none that connected to the same listener after it is served. -/
theorem C119_order {sv : Server} {clock : Int} {tr : List DEv} {h : Hub} (hr : Hub.Run (Hub.new sv clock) tr h) {x y c' : Nat} {k' : ConnG} (hxy : x < y)
    (hy : h.desk[y]? = some (.served c')) (hk' : h.net.sys.conns[c']? = some k') :
    h.desk[x]? ≠ some (.waiting k'.gen) ∧ h.desk[x]? ≠ some (.held k'.gen) ∧
      ∀ c k, h.desk[x]? = some (.served c) → h.net.sys.conns[c]? = some k → k.gen = k'.gen → c < c' := by
  have hi := hr.inv (.nil _) (DeskInv.new sv clock)
  have hg : ∀ {c : Nat} {k : ConnG}, h.net.sys.conns[c]? = some k → (gens h.net.sys)[c]? = some k.gen := fun hc => by simp [gens, hc]
  refine ⟨fun hx => (hi.order_waits hxy hx).2 hy (hg hk'), fun hx => hi.order_held hxy hx hy (hg hk'), fun c k hx hk e => ?_⟩
  exact hi.order hxy hx hy (by rw [hg hk, hg hk', e])

/-- **C119**, who is turned away: a client whose connection has been closed without being served is one whose listener has been closed (by RequestStop), or whose accept loop has been told to finish. -/
theorem C119_shut {sv : Server} {clock : Int} {tr : List DEv} {h : Hub} (hr : Hub.Run (Hub.new sv clock) tr h) {x g : Nat} (hx : h.desk[x]? = some (.shut g)) :
    g ∈ h.net.sys.closes ∨ h.net.sys.isDone g = true := (hr.inv (.nil _) (DeskInv.new sv clock)).shut hx

/-! ### Endless runs -/

/-- As `Sys.ready`; also an accept loop in `Accept` while a client waits at its listener. -/
def _root_.KM.Hub.ready (h : Hub) (t : Goroutine) : Prop :=
  h.net.sys.ready t ∨ ∃ g r, t = .run g ∧ h.net.sys.runs[g]? = some r ∧ r.pc = .accept ∧ ∃ x : Nat, h.desk[x]? = some (.waiting g)

/-- An endless run of the mock with its clients, under a fair scheduler. -/
structure HubEndless (sv : Server) (clock : Int) (hs : Nat → Hub) (es : Nat → DEv) : Prop where
  first : hs 0 = Hub.new sv clock
  step : ∀ n, Hub.Step (hs n) (es n) (hs (n + 1))
  fair : ∀ t, (∀ n, ∃ m, n ≤ m ∧ (hs m).ready t) → ∀ n, ∃ m, n ≤ m ∧ (inMock (ofHub (es m))).of = some t

def netOf (hs : Nat → Hub) (n : Nat) : Net := (hs n).net
def nevOf (es : Nat → DEv) (n : Nat) : NEv := ofHub (es n)

variable {sv : Server} {clock : Int} {hs : Nat → Hub} {es : Nat → DEv}

theorem HubEndless.net (h : HubEndless sv clock hs es) : NetEndless sv clock (netOf hs) (nevOf es) where
  first := by unfold netOf; rw [h.first]; rfl
  step := fun n => (h.step n).proj
  fair := fun t _ ht => h.fair t fun n => by
    obtain ⟨m, h1, h2⟩ := ht n
    exact ⟨m, h1, .inl h2⟩

theorem HubEndless.run (h : HubEndless sv clock hs es) (n : Nat) : ∃ tr, Hub.Run (Hub.new sv clock) tr (hs n) := by
  have snoc : ∀ {a b c : Hub} {tr : List DEv} {e : DEv}, Hub.Run a tr b → Hub.Step b e c → Hub.Run a (tr ++ [e]) c := by
    intro a b c tr e hr hst
    induction hr with
    | nil => exact .cons hst (.nil _)
    | cons h1 _ ih => exact .cons h1 (ih hst)
  induction n with
  | zero => exact ⟨[], by rw [h.first]; exact .nil _⟩
  | succ n ih =>
    obtain ⟨tr, htr⟩ := ih
    exact ⟨_, snoc htr (h.step n)⟩

theorem HubEndless.inv (h : HubEndless sv clock hs es) (n : Nat) : DeskInv (hs n).net.sys (hs n).desk := by
  obtain ⟨tr, htr⟩ := h.run n
  exact htr.inv (.nil _) (DeskInv.new sv clock)

theorem HubEndless.leaving (h : HubEndless sv clock hs es) (n : Nat) : Leaving (hs n).net.sys := by
  induction n with
  | zero =>
    rw [h.first]
    intro g r hr
    cases hr
  | succ n ih => exact step_leaving (inMock_step (h.step n).proj) ih

/-- Where a client can go. -/
def _root_.KM.Spot.next : Spot → Spot → Prop
  | .waiting g, q => q = .waiting g ∨ q = .held g ∨ q = .shut g
  | .held g, q => q = .held g ∨ (∃ c, q = .served c) ∨ q = .shut g
  | p, q => q = p

theorem place_kind {s s' : Sys} {d d' : Desk} (hk : Kind s s' d d') {x : Nat} {p : Spot} (hx : d[x]? = some p) : ∃ q, d'[x]? = some q ∧ p.next q := by
  have refl : p.next p := by cases p <;> first | rfl | exact .inl rfl
  cases hk with
  | quiet e => exact ⟨p, by rw [e]; exact hx, refl⟩
  | taken g y hy _ e =>
    by_cases hxy : y = x
    · subst hxy
      rw [hy] at hx; cases hx
      exact ⟨_, by rw [e]; exact List.getElem?_set_self (List.getElem?_eq_some_iff.1 hy).1, .inr (.inl rfl)⟩
    · exact ⟨p, by rw [e, List.getElem?_set_ne hxy]; exact hx, refl⟩
  | turned g e =>
    refine ⟨_, by rw [e]; exact move_of hx, ?_⟩
    split
    · next e => subst e; exact .inr (.inr rfl)
    · exact refl
  | served g e =>
    refine ⟨_, by rw [e]; exact move_of hx, ?_⟩
    split
    · next e => subst e; exact .inr (.inl ⟨_, rfl⟩)
    · exact refl
  | reset g e =>
    refine ⟨_, by rw [e]; exact move_of hx, ?_⟩
    split
    · next e => subst e; exact .inr (.inr rfl)
    · exact refl

theorem HubEndless.place_next (h : HubEndless sv clock hs es) {n x : Nat} {p : Spot} (hx : (hs n).desk[x]? = some p) : ∃ q, (hs (n + 1)).desk[x]? = some q ∧ p.next q := by
  have hst := h.step n
  have hc := (h.net.endless.whole n).2.2
  change CtxInv (hs n).net.sys at hc
  generalize hs n = a at hst hx hc
  generalize hs (n + 1) = b at hst
  generalize es n = e at hst
  cases hst with
  | connect hl =>
    refine ⟨p, ?_, by cases p <;> first | rfl | exact .inl rfl⟩
    show (_ ++ _)[x]? = _
    rw [List.getElem?_append_left (List.getElem?_eq_some_iff.1 hx).1]; exact hx
  | net hn hd => exact place_kind (desk_kind hc hn hd) hx

/-- Where a client is that has connected to listener `g`. -/
def Arrived (g : Nat) (p : Spot) : Prop := p = .waiting g ∨ p = .held g ∨ (∃ c, p = .served c) ∨ p = .shut g

theorem HubEndless.arrived (h : HubEndless sv clock hs es) {n m x g : Nat} (hnm : n ≤ m) {p : Spot} (hx : (hs n).desk[x]? = some p) (hp : Arrived g p) :
    ∃ q, (hs m).desk[x]? = some q ∧ Arrived g q ∧ (p ≠ .waiting g → q ≠ .waiting g) := by
  induction hnm with
  | refl => exact ⟨p, hx, hp, id⟩
  | @step m _ ih =>
    obtain ⟨q, h1, h2, h3⟩ := ih
    obtain ⟨q', h4, h5⟩ := h.place_next h1
    refine ⟨q', h4, ?_⟩
    rcases h2 with rfl | rfl | ⟨c, rfl⟩ | rfl
    · refine ⟨?_, fun hp => absurd rfl (h3 hp)⟩
      rcases h5 with rfl | rfl | rfl
      · exact .inl rfl
      · exact .inr (.inl rfl)
      · exact .inr (.inr (.inr rfl))
    · rcases h5 with rfl | ⟨c, rfl⟩ | rfl
      · exact ⟨.inr (.inl rfl), nofun⟩
      · exact ⟨.inr (.inr (.inl ⟨_, rfl⟩)), nofun⟩
      · exact ⟨.inr (.inr (.inr rfl)), nofun⟩
    · cases h5; exact ⟨.inr (.inr (.inl ⟨_, rfl⟩)), nofun⟩
    · cases h5; exact ⟨.inr (.inr (.inr rfl)), nofun⟩

/-- A client that is served stays so. -/
theorem HubEndless.served (h : HubEndless sv clock hs es) {n m x c : Nat} (hnm : n ≤ m) (hx : (hs n).desk[x]? = some (.served c)) : (hs m).desk[x]? = some (.served c) := by
  induction hnm with
  | refl => exact hx
  | @step m _ ih =>
    obtain ⟨q, h1, h2⟩ := h.place_next ih
    cases h2; exact h1

/-- An accept loop whose listener is open comes to `Accept`. -/
theorem HubEndless.accepts (h : HubEndless sv clock hs es) {n g : Nat} {r : RunG} (hg : (hs n).net.sys.runs[g]? = some r) (hr : 4 ≤ r.pc.rank) :
    ∃ m r', n ≤ m ∧ (hs m).net.sys.runs[g]? = some r' ∧ r'.pc = .accept := by
  have hE := h.net.endless
  generalize hx : r.pc.rank = x at hr
  induction x using Nat.strongRecOn generalizing n r with
  | ind x ih =>
    by_cases he : r.pc = .accept
    · exact ⟨n, r, Nat.le_refl _, hg, he⟩
    obtain ⟨m, m1, m2, m3⟩ := hE.first_act (.run g) n fun hno m hm => by
      obtain ⟨m', h1, h2⟩ := hE.mu_free m
      refine ⟨m', h1, r, hE.run_stays (by omega) hg fun j a _ => hno j a, ?_⟩
      revert hx he
      generalize r.pc = pc
      intro hx he
      cases pc <;> first | exact absurd rfl he | exact h2 | trivial | (simp only [RunPc.rank] at hx; omega)
    have e := hE.run_stays m1 hg m3
    obtain ⟨r0, r', a1, a2, a3, _⟩ := step_run_self (hE.step m) m2
    rw [e] at a1; cases a1
    have : 4 ≤ r'.pc.rank ∧ r'.pc.rank < x := by
      have hn := a2.1
      revert hx he hn
      generalize r.pc = pc; generalize r'.pc = pc'
      intro hx he hn
      cases pc <;> simp only [RunPc.next, List.mem_cons, List.not_mem_nil, or_false] at hn <;> first
        | exact absurd rfl he
        | (simp only [RunPc.rank] at hx; omega)
        | (subst hn; simp only [RunPc.rank] at hx ⊢; omega)
        | (rcases hn with rfl | rfl <;> simp only [RunPc.rank] at hx ⊢ <;> omega)
    obtain ⟨m', r2, b1, b2, b3⟩ := ih _ this.2 a3 rfl this.1
    exact ⟨m', r2, by omega, b2, b3⟩

theorem HubEndless.rank (h : HubEndless sv clock hs es) {n g : Nat} (hl : Listening g (hs n).net.sys) : ∃ r, (hs n).net.sys.runs[g]? = some r ∧ 4 ≤ r.pc.rank := by
  obtain ⟨⟨r, h1, _⟩, h2⟩ := hl
  refine ⟨r, h1, ?_⟩
  have := h.leaving n g r h1
  revert this
  generalize r.pc = pc
  intro this
  cases pc <;> first
    | decide
    | exact absurd (this (.inl rfl)) h2
    | exact absurd (this (.inr (.inl rfl))) h2
    | exact absurd (this (.inr (.inr rfl))) h2

/-- The client at the head of the queue does not wait for ever. -/
theorem HubEndless.head (h : HubEndless sv clock hs es) {n x g : Nat} (hx : (hs n).desk[x]? = some (.waiting g)) (hf : ∀ y, y < x → (hs n).desk[y]? ≠ some (.waiting g)) :
    ∃ m, n ≤ m ∧ (hs m).desk[x]? ≠ some (.waiting g) := by
  refine Classical.byContradiction fun hno => ?_
  have hw : ∀ m, n ≤ m → (hs m).desk[x]? = some (.waiting g) := fun m hm => Classical.byContradiction fun hx => hno ⟨m, hm, hx⟩
  have hfm : ∀ m, n ≤ m → ∀ y, y < x → (hs m).desk[y]? ≠ some (.waiting g) := by
    intro m hm
    induction hm with
    | refl => exact hf
    | @step m hm ih =>
      intro y hy e
      have hlt := (List.getElem?_eq_some_iff.1 (hw m hm)).1
      obtain ⟨q, h1, h2⟩ := h.place_next (List.getElem?_eq_getElem (show y < (hs m).desk.length by omega))
      rw [e] at h1
      cases h1
      have hne := ih y hy
      rw [List.getElem?_eq_getElem (show y < (hs m).desk.length by omega)] at hne
      generalize (hs m).desk[y] = p at h2 hne
      cases p with
      | waiting g' => rcases h2 with h2 | h2 | h2 <;> cases h2; exact hne rfl
      | held => rcases h2 with h2 | ⟨_, h2⟩ | h2 <;> cases h2
      | served => cases h2
      | shut => cases h2
  have hE := h.net.endless
  obtain ⟨r, hg, hr⟩ := h.rank ((h.inv n).waits hx)
  obtain ⟨m, r', m1, m2, m3⟩ := h.accepts hg hr
  -- from now on the loop is ready
  have ex : ∃ m', m ≤ m' ∧ (inMock (ofHub (es m'))).of = some (.run g) := by
    refine Classical.byContradiction fun hn => ?_
    have hn : ∀ m', m ≤ m' → (inMock (ofHub (es m'))).of ≠ some (.run g) := fun m' a b => hn ⟨m', a, b⟩
    refine absurd (h.fair (.run g) (fun l => ?_) m) fun ⟨m', a, b⟩ => hn m' a b
    refine ⟨max l m, Nat.le_max_left .., .inr ⟨g, r', rfl, ?_, m3, x, hw _ (by omega)⟩⟩
    exact hE.run_stays (Nat.le_max_right l m) m2 fun j a _ => hn j a
  obtain ⟨m', a1, a2⟩ := ex
  obtain ⟨m', b1, b2, b3⟩ := first_time (P := fun m => (inMock (ofHub (es m))).of = some (.run g)) a1 a2
  have hpc : (hs m').net.sys.runs[g]? = some r' := hE.run_stays b1 m2 b3
  have hw' := hw m' (by omega)
  have hw'' := hw (m' + 1) (by omega)
  have hf' := hfm m' (by omega)
  have hi := h.inv m'
  have hst := h.step m'
  generalize hs m' = a at hst hpc hw' hf' hi
  generalize hs (m' + 1) = b at hst hw''
  generalize es m' = e at hst b2
  cases hst with
  | connect => cases b2
  | @net n0 n1 d d' e hn hd =>
    obtain ⟨ok, rfl⟩ : ∃ ok, e = .mock (.life (.run g ok)) := by
      cases e with
      | mock e =>
        cases e with
        | life c => cases c <;> cases b2; exact ⟨_, rfl⟩
        | _ => cases b2
      | _ => cases b2
    have hd : d.run n0.sys g = some d' := hd
    unfold Desk.run at hd
    change n0.sys.runs[g]? = _ at hpc
    rw [hpc] at hd
    simp only [Option.map_some, m3] at hd
    have hcl := (hi.waits hw').2
    change g ∉ n0.sys.closes at hcl
    rw [if_neg (by rw [List.contains_iff_mem]; exact hcl)] at hd
    obtain ⟨z, z1, z2, z3⟩ := take_some hd
    have : z = x := by
      rcases Nat.lt_trichotomy z x with hl | hl | hl
      · exact absurd z1 (hf' z hl)
      · exact hl
      · exact absurd hw' (z2 x hl)
    subst this
    change d'[z]? = _ at hw''
    rw [z3, List.getElem?_set_self (List.getElem?_eq_some_iff.1 z1).1] at hw''
    cases hw''

/-- A client in the hands of an accept loop is served, or its connection is closed. -/
theorem HubEndless.held_settled (h : HubEndless sv clock hs es) {m x g : Nat} (q1 : (hs m).desk[x]? = some (.held g)) :
    ∃ m', m ≤ m' ∧ ((∃ c, (hs m').desk[x]? = some (.served c)) ∨ (hs m').desk[x]? = some (.shut g)) := by
  obtain ⟨r, hg, hp⟩ := (h.inv m).held q1
  obtain ⟨m', r', a1, a2, a3⟩ := h.accepts hg (by rcases hp with hp | hp | hp <;> rw [hp] <;> decide)
  obtain ⟨q, b1, b2, b3⟩ := h.arrived a1 q1 (.inr (.inl rfl))
  refine ⟨m', a1, ?_⟩
  rcases b2 with rfl | rfl | ⟨c, rfl⟩ | rfl
  · exact absurd rfl (b3 nofun)
  · obtain ⟨r2, c1, c2⟩ := (h.inv m').held b1
    rw [a2] at c1; cases c1
    rw [a3] at c2
    rcases c2 with c2 | c2 | c2 <;> cases c2
  · exact .inl ⟨c, b1⟩
  · exact .inr b1

/-- **C119**: with a fair scheduler, every client that connects is served, or its connection is closed. -/
theorem C119_settled (h : HubEndless sv clock hs es) {n x g : Nat} (hx : (hs n).desk[x]? = some (.waiting g)) :
    ∃ m, n ≤ m ∧ ((∃ c, (hs m).desk[x]? = some (.served c)) ∨ (hs m).desk[x]? = some (.shut g)) := by
  have front : ∀ k, k ≤ x + 1 → ∃ m, n ≤ m ∧ ∀ y, y < k → (hs m).desk[y]? ≠ some (.waiting g) := by
    intro k
    induction k with
    | zero => intro _; exact ⟨n, Nat.le_refl _, by omega⟩
    | succ k ih =>
      intro hk
      obtain ⟨m, m1, m2⟩ := ih (by omega)
      by_cases hw : (hs m).desk[k]? = some (.waiting g)
      · obtain ⟨m', a1, a2⟩ := h.head hw m2
        refine ⟨m', by omega, fun y hy => ?_⟩
        by_cases e : y = k
        · rw [e]; exact a2
        · have hlt := (List.getElem?_eq_some_iff.1 hw).1
          intro hy'
          have := m2 y (by omega)
          rw [List.getElem?_eq_getElem (show y < (hs m).desk.length by omega)] at this
          generalize hp : (hs m).desk[y] = p at this
          have hpe : (hs m).desk[y]? = some p := by rw [List.getElem?_eq_getElem (show y < (hs m).desk.length by omega), hp]
          have back : ∀ j, m ≤ j → (hs j).desk[y]? ≠ some (.waiting g) := by
            intro j hj
            induction hj with
            | refl => rw [hpe]; exact this
            | @step j hj ihj =>
              intro e'
              have hlj : y < (hs j).desk.length := by
                have : k < (hs j).desk.length := by
                  obtain ⟨q, q1, _⟩ := h.arrived hj hw (.inl rfl)
                  exact (List.getElem?_eq_some_iff.1 q1).1
                omega
              obtain ⟨q, h1, h2⟩ := h.place_next (List.getElem?_eq_getElem hlj)
              rw [e'] at h1
              cases h1
              rw [List.getElem?_eq_getElem hlj] at ihj
              generalize (hs j).desk[y] = p at h2 ihj
              cases p with
              | waiting g' => rcases h2 with h2 | h2 | h2 <;> cases h2; exact ihj rfl
              | held => rcases h2 with h2 | ⟨_, h2⟩ | h2 <;> cases h2
              | served => cases h2
              | shut => cases h2
          exact back m' a1 hy'
      · exact ⟨m, m1, fun y hy => by
          by_cases e : y = k
          · rw [e]; exact hw
          · exact m2 y (by omega)⟩
  obtain ⟨m, m1, m2⟩ := front (x + 1) (Nat.le_refl _)
  obtain ⟨q, q1, q2, _⟩ := h.arrived m1 hx (.inl rfl)
  rcases q2 with rfl | rfl | ⟨c, rfl⟩ | rfl
  · exact absurd q1 (m2 x (by omega))
  · obtain ⟨m', a1, a2⟩ := h.held_settled q1
    exact ⟨m', by omega, a2⟩
  · exact ⟨m, m1, .inl ⟨c, q1⟩⟩
  · exact ⟨m, m1, .inr q1⟩

/-- **C119**, welcome: a client that connects is served if nobody ever closes the listener or tells the mock to finish. -/
theorem C119_served (h : HubEndless sv clock hs es) {n g : Nat} (he : es n = .connect g) (hopen : ∀ m, n ≤ m → g ∉ (hs m).net.sys.closes ∧ (hs m).net.sys.isDone g = false) :
    ∃ m c, n ≤ m ∧ (hs m).desk[(hs n).desk.length]? = some (.served c) := by
  have hx : (hs (n + 1)).desk[(hs n).desk.length]? = some (.waiting g) := by
    have hst := h.step n
    rw [he] at hst
    generalize hs n = a at hst
    generalize hs (n + 1) = b at hst
    cases hst with
    | connect => simp
  obtain ⟨m, m1, ⟨c, m2⟩ | m2⟩ := C119_settled h hx
  · exact ⟨m, c, by omega, m2⟩
  · exfalso
    have := hopen m (by omega)
    rcases (h.inv m).shut m2 with h1 | h1
    · exact this.1 h1
    · rw [this.2] at h1; cases h1

/-! ### Tests -/

/-- Client `x` has received the `k` responses it wants. -/
def HasAll (hs : Nat → Hub) (es : Nat → DEv) (k : Nat) (x n : Nat) : Prop := ∃ c, (hs n).desk[x]? = some (.served c) ∧ k ≤ responses (nevOf es) c n

/-- A test, as in `Test` (C118), with clients that connect: `xs` are the clients, numbered in the order in which they connect. What is said of a client's connection is said of the connection that serves it. -/
structure VisitTest (sv : Server) (clock : Int) (i : Nat) (xs : List Nat) (k : Nat → Nat) (hs : Nat → Hub) (es : Nat → DEv) : Prop extends HubEndless sv clock hs es where
  others : ∀ n j, j ≠ i → ((hs n).net.sys.api j).life = false ∧ (hs n).net.sys.api j ≠ .finish
  parent : ∀ n, es n ≠ .net (.mock (.life .parentCancel))
  patient : ∀ n cl, CallsAt (sysOf (netOf hs)) (evOf (nevOf es)) i cl n → cl ∈ telling → ∀ x ∈ xs, HasAll hs es (k x) x n
  connects : ∀ x ∈ xs, ∃ n, x < (hs n).desk.length
  asks : ∀ x ∈ xs, ∀ N c, (hs N).desk[x]? = some (.served c) → ∃ n, k x ≤ (frames (asked c (upTo (nevOf es) n))).length
  stays : ∀ x ∈ xs, ∀ N c, (hs N).desk[x]? = some (.served c) → ∀ n, es n = .net (.mock (.conn c .recv .closed)) → k x ≤ responses (nevOf es) c n
  writes : ∀ x ∈ xs, ∀ N c, (hs N).desk[x]? = some (.served c) → ∀ n b, es n = .net (.mock (.conn c (.write b) false)) → k x ≤ responses (nevOf es) c n
  arrives : ∀ x ∈ xs, ∀ N c, (hs N).desk[x]? = some (.served c) → ∀ n, (∀ m, n ≤ m → ((hs m).net.links c).up ≠ []) →
    (∀ l, n ≤ l → ∃ m r, l ≤ m ∧ es m = .net (.mock (.conn c .recv r))) → ∃ m, n ≤ m ∧ ((∃ b, es m = .net (.mock (.conn c .recv (.data b)))) ∨ k x ≤ responses (nevOf es) c m)
  receives : ∀ x ∈ xs, ∀ N c, (hs N).desk[x]? = some (.served c) → ∀ n, ((hs n).net.links c).down ≠ [] →
    ∃ m, n ≤ m ∧ ((∃ b, b ≠ [] ∧ es m = .net (.receive c b)) ∨ k x ≤ responses (nevOf es) c m)
  stops : (∃ n, ∀ x ∈ xs, HasAll hs es (k x) x n) → ∃ n, CallsAt (sysOf (netOf hs)) (evOf (nevOf es)) i .requestStop n ∧
    ∀ m, ReturnsAt (sysOf (netOf hs)) i n m → ∃ n', m ≤ n' ∧ CallsAt (sysOf (netOf hs)) (evOf (nevOf es)) i .waitForTermination n' ∧
      ∀ j, m ≤ j → j ≤ n' → ((hs j).net.sys.api i).life = false

theorem VisitTest.lone {i : Nat} {xs : List Nat} {k : Nat → Nat} (h : VisitTest sv clock i xs k hs es) : Lone sv clock i (netOf hs) (nevOf es) where
  toNetEndless := h.toHubEndless.net
  others := h.others
  parent := fun n e => by
    have := h.parent n
    unfold nevOf at e
    cases hx : es n with
    | net x => rw [hx] at e this; cases (show x = _ from e); exact this rfl
    | connect g => rw [hx] at e; cases e

/-- **C119**, tests: every client of such a test is served. -/
theorem C119_visits {i : Nat} {xs : List Nat} {k : Nat → Nat} (h : VisitTest sv clock i xs k hs es) : ∀ x ∈ xs, ∃ n c, (hs n).desk[x]? = some (.served c) := by
  intro x hx
  by_cases hn : ∀ n cl, CallsAt (sysOf (netOf hs)) (evOf (nevOf es)) i cl n → cl ∉ telling
  · obtain ⟨n, hlt⟩ := h.connects x hx
    have arrive : ∃ g, Arrived g ((hs n).desk[x]) := by
      cases (hs n).desk[x] with
      | waiting g => exact ⟨g, .inl rfl⟩
      | held g => exact ⟨g, .inr (.inl rfl)⟩
      | served c => exact ⟨0, .inr (.inr (.inl ⟨c, rfl⟩))⟩
      | shut g => exact ⟨g, .inr (.inr (.inr rfl))⟩
    have not_shut : ∀ m g, (hs m).desk[x]? ≠ some (.shut g) := fun m g e => by
      rcases (h.toHubEndless.inv m).shut e with h1 | h1
      · rw [show (hs m).net.sys.closes = [] from h.lone.open_ hn m] at h1; cases h1
      · rw [show (hs m).net.sys.isDone g = false from h.lone.untold hn m g] at h1; cases h1
    obtain ⟨g, hg⟩ := arrive
    have hxe : (hs n).desk[x]? = some (hs n).desk[x] := List.getElem?_eq_getElem hlt
    generalize (hs n).desk[x] = p at hg hxe
    rcases hg with rfl | rfl | ⟨c, rfl⟩ | rfl
    · obtain ⟨m, _, ⟨c, m2⟩ | m2⟩ := C119_settled h.toHubEndless hxe
      · exact ⟨m, c, m2⟩
      · exact absurd m2 (not_shut _ _)
    · obtain ⟨m, _, ⟨c, m2⟩ | m2⟩ := h.toHubEndless.held_settled hxe
      · exact ⟨m, c, m2⟩
      · exact absurd m2 (not_shut _ _)
    · exact ⟨n, c, hxe⟩
    · exact absurd hxe (not_shut _ _)
  · obtain ⟨n, hn⟩ := Classical.not_forall.1 hn
    obtain ⟨cl, hn⟩ := Classical.not_forall.1 hn
    obtain ⟨h1, h2⟩ := Classical.not_imp.1 hn
    obtain ⟨c, hc, _⟩ := h.patient n cl h1 (Classical.not_not.1 h2) x hx
    exact ⟨n, c, hc⟩

/-- **C119**, tests: a test whose clients connect is a test in the sense of C118, with the connections that serve the clients. So what C118 says of it is true. -/
theorem C119_test {i : Nat} {xs : List Nat} {k : Nat → Nat} (h : VisitTest sv clock i xs k hs es) :
    ∃ conn k' : Nat → Nat, (∀ x ∈ xs, ∃ n, (hs n).desk[x]? = some (.served (conn x))) ∧ (∀ x ∈ xs, k' (conn x) = k x) ∧
      Test sv clock i (xs.map conn) k' (netOf hs) (nevOf es) := by
  have hv := C119_visits h
  let conn : Nat → Nat := fun x => Classical.epsilon fun c => ∃ n, (hs n).desk[x]? = some (.served c)
  have hconn : ∀ x ∈ xs, ∃ n, (hs n).desk[x]? = some (.served (conn x)) := fun x hx => by
    obtain ⟨n, c, hc⟩ := hv x hx
    exact Classical.epsilon_spec (p := fun c => ∃ n, (hs n).desk[x]? = some (.served c)) ⟨c, n, hc⟩
  have inj : ∀ x ∈ xs, ∀ y ∈ xs, conn x = conn y → x = y := fun x hx y hy e => by
    obtain ⟨n, h1⟩ := hconn x hx
    obtain ⟨m, h2⟩ := hconn y hy
    rw [← e] at h2
    have a := h.toHubEndless.served (Nat.le_max_left n m) h1
    have b := h.toHubEndless.served (Nat.le_max_right n m) h2
    exact (h.toHubEndless.inv _).once a b
  let back : Nat → Nat := fun c => Classical.epsilon fun x => x ∈ xs ∧ conn x = c
  have hback : ∀ x ∈ xs, back (conn x) = x := fun x hx => by
    have := Classical.epsilon_spec (p := fun y => y ∈ xs ∧ conn y = conn x) ⟨x, hx, rfl⟩
    exact inj _ this.1 x hx this.2
  have hk : ∀ x ∈ xs, k (back (conn x)) = k x := fun x hx => by rw [hback x hx]
  have mem : ∀ {c : Nat}, c ∈ xs.map conn → ∃ x ∈ xs, conn x = c := fun hc => List.mem_map.1 hc
  -- the events of the connections
  have ev : ∀ {n : Nat} {e : SEv}, nevOf es n = .mock e → es n = .net (.mock e) := fun {n e} he => by
    unfold nevOf at he
    cases hx : es n with
    | net x => rw [hx] at he; cases (show x = _ from he); rfl
    | connect g => rw [hx] at he; cases he
  have evr : ∀ {n c : Nat} {b : Bytes}, es n = .net (.receive c b) → nevOf es n = .receive c b := fun e => by unfold nevOf; rw [e]; rfl
  have evm : ∀ {n : Nat} {e : SEv}, es n = .net (.mock e) → nevOf es n = .mock e := fun e => by unfold nevOf; rw [e]; rfl
  have same : ∀ x ∈ xs, ∀ n c, (hs n).desk[x]? = some (.served c) → c = conn x := fun x hx n c hc => by
    obtain ⟨m, h1⟩ := hconn x hx
    have a := h.toHubEndless.served (Nat.le_max_left n m) hc
    have b := h.toHubEndless.served (Nat.le_max_right n m) h1
    rw [a] at b; cases b; rfl
  refine ⟨conn, fun c => k (back c), hconn, hk, ?_⟩
  constructor
  · exact h.toHubEndless.net
  · exact h.others
  · exact h.lone.parent
  · intro n cl h1 h2 c hc
    obtain ⟨x, hx, rfl⟩ := mem hc
    obtain ⟨c, a, b⟩ := h.patient n cl h1 h2 x hx
    rw [same x hx n c a] at b
    rw [hk x hx]; exact b
  · intro c hc
    obtain ⟨x, hx, rfl⟩ := mem hc
    obtain ⟨n, hn⟩ := hconn x hx
    refine ⟨n, .inl ?_⟩
    have := (h.toHubEndless.inv n).served hn
    simp only [gens, List.length_map] at this
    show (hs n).net.sys.conns[conn x]? ≠ none
    rw [List.getElem?_eq_getElem this]
    exact Option.some_ne_none _
  · intro c hc
    obtain ⟨x, hx, rfl⟩ := mem hc
    obtain ⟨N, hN⟩ := hconn x hx
    rw [hk x hx]
    exact h.asks x hx N _ hN
  · intro c hc n e
    obtain ⟨x, hx, rfl⟩ := mem hc
    obtain ⟨N, hN⟩ := hconn x hx
    rw [hk x hx]
    exact h.stays x hx N _ hN n (ev e)
  · intro c hc n b e
    obtain ⟨x, hx, rfl⟩ := mem hc
    obtain ⟨N, hN⟩ := hconn x hx
    rw [hk x hx]
    exact h.writes x hx N _ hN n b (ev e)
  · intro c hc n h1 h2
    obtain ⟨x, hx, rfl⟩ := mem hc
    obtain ⟨N, hN⟩ := hconn x hx
    rw [hk x hx]
    obtain ⟨m, m1, m2⟩ := h.arrives x hx N _ hN n h1 fun l hl => by
      obtain ⟨m, r, a, b⟩ := h2 l hl
      exact ⟨m, r, a, ev b⟩
    exact ⟨m, m1, m2.imp (fun ⟨b, hb⟩ => ⟨b, evm hb⟩) id⟩
  · intro c hc n h1
    obtain ⟨x, hx, rfl⟩ := mem hc
    obtain ⟨N, hN⟩ := hconn x hx
    rw [hk x hx]
    obtain ⟨m, m1, m2⟩ := h.receives x hx N _ hN n h1
    exact ⟨m, m1, m2.imp (fun ⟨b, hb, hb'⟩ => ⟨b, hb, evr hb'⟩) id⟩
  · rintro ⟨n, hn⟩
    -- a time at which all are served
    have all : ∀ l : List Nat, (∀ x ∈ l, x ∈ xs) → ∃ N, n ≤ N ∧ ∀ x ∈ l, (hs N).desk[x]? = some (.served (conn x)) := by
      intro l
      induction l with
      | nil => intro _; exact ⟨n, Nat.le_refl _, nofun⟩
      | cons x l ih =>
        intro hl
        obtain ⟨N, h1, h2⟩ := ih fun y hy => hl y (List.mem_cons_of_mem _ hy)
        obtain ⟨M, h3⟩ := hconn x (hl x List.mem_cons_self)
        refine ⟨max N M, by omega, fun y hy => ?_⟩
        rcases List.mem_cons.1 hy with rfl | hy
        · exact h.toHubEndless.served (Nat.le_max_right ..) h3
        · exact h.toHubEndless.served (Nat.le_max_left ..) (h2 y hy)
    obtain ⟨N, h1, h2⟩ := all xs fun _ => id
    refine h.stops ⟨N, fun x hx => ⟨conn x, h2 x hx, ?_⟩⟩
    have := hn (conn x) (List.mem_map.2 ⟨x, hx, rfl⟩)
    rw [hk x hx] at this
    exact Nat.le_trans this (responses_mono _ _ h1)

end Props
end KM
