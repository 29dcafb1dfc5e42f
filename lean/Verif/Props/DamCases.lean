import Verif.Props.Dam
import Verif.Props.TestEndsCases
import Verif.Props.PollsCases
/-
C121: a client that does not read, and `WaitForTermination` that does not return because of it; a run that meets the hypotheses.
-/
namespace KM.Props
open KM KM.Spec

/-- A part of a run in which goroutines that write wait for room. -/
inductive DamRun (cap : Nat → Nat) : Net → List NEv → Net → Prop where
  | nil (n : Net) : DamRun cap n [] n
  | cons {n n1 n2 : Net} {e : NEv} {es : List NEv} (h : Net.Step n e n1) (hw : ∀ c, (inMock e).of = some (.conn c) → ¬ Held cap n.links c) (hs : DamRun cap n1 es n2) :
      DamRun cap n (e :: es) n2

theorem DamRun.append {cap : Nat → Nat} {n n1 n2 : Net} {a b : List NEv} (h : DamRun cap n a n1) (h' : DamRun cap n1 b n2) : DamRun cap n (a ++ b) n2 := by
  induction h with
  | nil => exact h'
  | cons h hw _ ih => exact .cons h hw (ih h')

/-- The states of such a part. -/
theorem DamRun.states {cap : Nat → Nat} {n n' : Net} {tr : List NEv} (h : DamRun cap n tr n') :
    ∃ st : Nat → Net, st 0 = n ∧ st tr.length = n' ∧ ∀ (i : Nat) (e : NEv), tr[i]? = some e →
      Net.Step (st i) e (st (i + 1)) ∧ ∀ c, (inMock e).of = some (.conn c) → ¬ Held cap (st i).links c := by
  induction h with
  | nil n => exact ⟨fun _ => n, rfl, rfl, nofun⟩
  | @cons n n1 n2 e es h hw _ ih =>
    obtain ⟨st, h1, h2, h3⟩ := ih
    refine ⟨fun i => match i with | 0 => n | i + 1 => st i, rfl, h2, ?_⟩
    intro i e' hi
    cases i with
    | zero => cases hi; exact ⟨by rw [← h1] at h; exact h, hw⟩
    | succ i => exact h3 i e' hi

/-- What a connection that serves leaves as it is. -/
def Kept (s s' : Sys) : Prop := s' = { s with ds := s'.ds, clock := s'.clock, done := s'.done, conns := s'.conns } ∧ s'.conns.length = s.conns.length

/-- A client sends, or connection 0 serves. -/
def serves0 : NEv → Bool
  | .send _ _ => true
  | .mock (.conn 0 _ _) => true
  | .mock (.unroll 0) => true
  | _ => false

theorem Kept.trans {a b c : Sys} (h : Kept a b) (h' : Kept b c) : Kept a c := by
  refine ⟨?_, h'.2.trans h.2⟩
  have e := h'.1
  rw [h.1] at e
  exact e

theorem serves0_keeps {n n' : Net} {e : NEv} (h : Net.Step n e n') (he : serves0 e = true) : Kept n.sys n'.sys := by
  cases h with
  | mock h hl =>
    cases h with
    | conn => exact ⟨rfl, by simp [Sys.setConn, Sys.setView]⟩
    | unroll => exact ⟨rfl, by simp [Sys.setConn]⟩
    | _ => cases he
  | send => exact ⟨rfl, rfl⟩
  | receive => cases he

theorem serves0_of {e : NEv} (he : serves0 e = true) {c : Nat} (h : (inMock e).of = some (.conn c)) : c = 0 := by
  unfold serves0 at he
  split at he <;> first | (cases h; done) | (cases h; rfl) | (cases he; done)

/-- While connection 0 serves and its client reads nothing, there comes the first time that the mock is stuck. -/
theorem first_held {cap : Nat → Nat} {n n' : Net} {tr : List NEv} (h : Net.Run n tr n') (ht : ∀ e ∈ tr, serves0 e = true) (hh : Held cap n'.links 0) :
    ∃ tr1 n1, DamRun cap n tr1 n1 ∧ Held cap n1.links 0 ∧ Kept n.sys n1.sys ∧ ∀ e ∈ tr1, serves0 e = true := by
  induction h with
  | nil n => exact ⟨[], n, .nil n, hh, ⟨rfl, rfl⟩, nofun⟩
  | @cons n n1 n2 e es h _ ih =>
    by_cases h0 : Held cap n.links 0
    · exact ⟨[], n, .nil n, h0, ⟨rfl, rfl⟩, nofun⟩
    · obtain ⟨tr1, m, i1, i2, i3, i4⟩ := ih (fun e he => ht e (List.mem_cons_of_mem _ he)) hh
      have he := ht e List.mem_cons_self
      refine ⟨e :: tr1, m, .cons h (fun c hc => by rw [serves0_of he hc]; exact h0) i1, i2, (serves0_keeps h he).trans i3, ?_⟩
      intro e' he'
      rcases List.mem_cons.1 he' with rfl | he'
      · exact he
      · exact i4 e' he'

/-! ### The client that asks and does not read -/

/-- The mock is started and accepts a connection. -/
def damOpening : List NPick := (starts 0 ++ opens 0 ++ accepts 0).map .mock

def damReq : Bytes := frame .apiVersions 7

/-- Its client asks which requests there are, and the mock responds. -/
def damRound : List NPick := [.send 0 damReq, .mock (.conn 0), .mock (.conn 0), .mock (.recv 0 (.data damReq))] ++ List.replicate 8 (.mock (.conn 0))

def damSys : Sys := (netAfter damOpening (Net.new ⟨9092, []⟩ 0)).sys

/-- With `d` not read by the client. -/
def damAt (d : Bytes) : Net := ⟨damSys, fun c => match c with | 0 => ⟨[], d, false⟩ | _ + 1 => ⟨[], [], false⟩⟩

def damNext (d : Bytes) : Bytes := ((netAfter damRound (damAt d)).links 0).down

set_option maxRecDepth 1000000 in
theorem dam_opens : netAfter damOpening (Net.new ⟨9092, []⟩ 0) = damAt [] := by
  have : (netAfter damOpening (Net.new ⟨9092, []⟩ 0)).links = (damAt []).links := by
    funext c
    cases c with
    | zero => with_unfolding_all rfl
    | succ c => with_unfolding_all rfl
  exact (show ∀ a b : Net, a.sys = b.sys → a.links = b.links → a = b from fun a b h1 h2 => by cases a; cases b; cases h1; cases h2; rfl) _ _ rfl this

set_option maxRecDepth 1000000 in
theorem dam_round (d : Bytes) : netAfter damRound (damAt d) = damAt (damNext d) := by
  have h1 : (netAfter damRound (damAt d)).links = (damAt (damNext d)).links := by
    funext c
    cases c with
    | zero => with_unfolding_all rfl
    | succ c => with_unfolding_all rfl
  have h2 : (netAfter damRound (damAt d)).sys = damSys := by with_unfolding_all rfl
  exact (show ∀ a b : Net, a.sys = b.sys → a.links = b.links → a = b from fun a b h1 h2 => by cases a; cases b; cases h1; cases h2; rfl) _ _ h2 h1

set_option maxRecDepth 1000000 in
theorem dam_next (d : Bytes) : damNext d = d ++ [0, 0, 0, 10] ++ [0, 0, 0, 7] ++ [0, 0, 0, 0, 0, 0] := by with_unfolding_all rfl

set_option maxRecDepth 1000000 in
theorem dam_serves (d : Bytes) : (netEvents damRound (damAt d)).all serves0 = true := by with_unfolding_all rfl

theorem dam_rounds (k : Nat) (d : Bytes) : ∃ tr d', Net.Run (damAt d) tr (damAt d') ∧ (∀ e ∈ tr, serves0 e = true) ∧ k ≤ d'.length := by
  induction k generalizing d with
  | zero => exact ⟨[], d, .nil _, nofun, Nat.zero_le _⟩
  | succ k ih =>
    obtain ⟨tr, d', h1, h2, h3⟩ := ih d
    have hr := netAfter_run damRound (damAt d')
    rw [dam_round] at hr
    refine ⟨_, _, h1.append hr, fun e he => ?_, by rw [dam_next]; simp; omega⟩
    rcases List.mem_append.1 he with he | he
    · exact h2 e he
    · exact List.all_eq_true.1 (dam_serves d') e he

/-! ### The test stops the mock -/

def damEnd : List NPick := (caller 0 .requestStop 8 ++ [Pick.run 0] ++ caller 0 .waitForTermination 2).map .mock

/-- The mock with connection 0 stuck somewhere in its work. -/
def damStuck (ds : Store) (clock : Int) (done : List Nat) (conns : List ConnG) (L : Nat → Link) : Net := ⟨{ damSys with ds, clock, done, conns }, L⟩

variable (ds : Store) (clock : Int) (done : List Nat) (conns : List ConnG) (L : Nat → Link)

set_option maxRecDepth 1000000 in
theorem damEnd_plays : (Net.play damEnd (damStuck ds clock done conns L)).isSome = true := by with_unfolding_all rfl

set_option maxRecDepth 1000000 in
theorem damEnd_calls : (netStAt damEnd (damStuck ds clock done conns L) 0).sys.api 0 = .idle ∧ (netStAt damEnd (damStuck ds clock done conns L) 8).sys.api 0 = .idle ∧
    (netStAt damEnd (damStuck ds clock done conns L) 9).sys.api 0 = .idle ∧ netEvAt damEnd (damStuck ds clock done conns L) 0 = .mock (.life (.api 0 .requestStop)) ∧
    netEvAt damEnd (damStuck ds clock done conns L) 9 = .mock (.life (.api 0 .waitForTermination)) := by
  refine ⟨?_, ?_, ?_, ?_, ?_⟩ <;> with_unfolding_all rfl

set_option maxRecDepth 1000000 in
theorem damEnd_busy : ((List.range 7).all fun i => match (netStAt damEnd (damStuck ds clock done conns L) (i + 1)).sys.api 0 with | .stop _ _ => true | _ => false) = true := by
  with_unfolding_all rfl

set_option maxRecDepth 1000000 in
theorem damEnd_waits : (netStAt damEnd (damStuck ds clock done conns L) 10).sys.api 0 = .wait .enter false ∧ (netStAt damEnd (damStuck ds clock done conns L) 11).sys.api 0 = .wait .asleep false ∧
    (netStAt damEnd (damStuck ds clock done conns L) 11).sys.runs = [⟨.waitActive, 1⟩] ∧ (netStAt damEnd (damStuck ds clock done conns L) 11).sys.active = 1 ∧
    (netStAt damEnd (damStuck ds clock done conns L) 11).sys.conns = conns ∧ (netStAt damEnd (damStuck ds clock done conns L) 11).links = L := by
  refine ⟨?_, ?_, ?_, ?_, ?_, ?_⟩ <;> with_unfolding_all rfl

/-- A caller or an accept loop, not a connection. -/
def damQuiet (e : NEv) : Bool := solo (inMock e) && match (inMock e).of with | some (.conn _) => false | _ => true

set_option maxRecDepth 1000000 in
theorem damEnd_quiet : ((List.range 11).all fun i => damQuiet (netEvAt damEnd (damStuck ds clock done conns L) i)) = true := by with_unfolding_all rfl

omit ds clock done conns L

theorem netStAt_after (ps : List NPick) (n : Net) (h : (Net.play ps n).isSome = true) (i : Nat) (hi : ps.length ≤ i) : netStAt ps n i = netStAt ps n ps.length ∧ netEvAt ps n i = .mock (.tick 0) := by
  induction ps generalizing n i with
  | nil => cases i <;> exact ⟨rfl, rfl⟩
  | cons p ps ih =>
    unfold Net.play at h
    cases hp : n.pick p with
    | none => rw [hp] at h; cases h
    | some x =>
      rw [hp] at h
      dsimp only at h
      have h' : (Net.play ps x.2).isSome = true := by
        cases hq : Net.play ps x.2 with
        | none => rw [hq] at h; cases h
        | some y => rfl
      obtain ⟨i, rfl⟩ : ∃ j, i = j + 1 := ⟨i - 1, by simp at hi; omega⟩
      have e1 : ∀ i, netStAt (p :: ps) n (i + 1) = netStAt ps x.2 i := fun i => by conv => lhs; unfold netStAt; rw [hp]
      have e2 : netEvAt (p :: ps) n (i + 1) = netEvAt ps x.2 i := by conv => lhs; unfold netEvAt; rw [hp]
      rw [e1, e2, List.length_cons, e1]
      exact ih _ h' i (by simpa using hi)

set_option maxRecDepth 1000000 in
theorem damOpening_quiet : (netEvents damOpening (Net.new ⟨9092, []⟩ 0)).all damQuiet = true := by with_unfolding_all rfl

set_option maxRecDepth 1000000 in
theorem damSys_one : damSys.conns.length = 1 := by with_unfolding_all rfl

theorem quiet_run {cap : Nat → Nat} {n n' : Net} {tr : List NEv} (h : Net.Run n tr n') (ht : ∀ e ∈ tr, damQuiet e = true) : DamRun cap n tr n' := by
  induction h with
  | nil => exact .nil _
  | cons h _ ih =>
    refine .cons h (fun c hc => ?_) (ih fun e he => ht e (List.mem_cons_of_mem _ he))
    have := ht _ List.mem_cons_self
    unfold damQuiet at this
    rw [hc] at this
    simp at this

theorem quiet_solo {e : NEv} (h : damQuiet e = true ∨ serves0 e = true) : solo (inMock e) = true := by
  rcases h with h | h
  · unfold damQuiet at h
    simp only [Bool.and_eq_true] at h
    exact h.1
  · unfold serves0 at h
    split at h <;> first | rfl | (cases h; done)

/-- **C121**, `WaitForTermination`: it may wait for ever. Whatever room the connections have: a client connects, sends requests (of 15 bytes) and receives nothing. `RequestStop` returns, and
`WaitForTermination` does not, ever. -/
theorem C121_waits (cap : Nat) : ∃ (ns : Nat → Net) (es : Nat → NEv) (n m w : Nat), DamEndless (fun _ => cap) ⟨9092, []⟩ 0 ns es ∧ (∀ n, Apart (ns n).sys) ∧
    CallsAt (sysOf ns) (evOf es) 0 .requestStop n ∧ ReturnsAt (sysOf ns) 0 n m ∧ m ≤ w ∧ CallsAt (sysOf ns) (evOf es) 0 .waitForTermination w ∧
    (∀ k, w < k → busy ((ns k).sys.api 0)) ∧ (∀ k, (ns k).sys.conns.length ≤ 1) ∧ ∀ k, damQuiet (es k) = true ∨ serves0 (es k) = true := by
  have hopen := netAfter_run damOpening (Net.new ⟨9092, []⟩ 0)
  rw [dam_opens] at hopen
  have hopen := quiet_run (cap := fun _ => cap) hopen (fun e he => List.all_eq_true.1 damOpening_quiet e he)
  obtain ⟨trR, d', hR, hRs, hRl⟩ := dam_rounds (cap + 1) []
  obtain ⟨tr1, n1, r1, r2, r3, r4⟩ := first_held (cap := fun _ => cap) hR hRs ⟨rfl, hRl⟩
  have hpre := hopen.append r1
  have hkind : ∀ e ∈ netEvents damOpening (Net.new ⟨9092, []⟩ 0) ++ tr1, damQuiet e = true ∨ serves0 e = true := fun e he => by
    rcases List.mem_append.1 he with he | he
    · exact .inl (List.all_eq_true.1 damOpening_quiet e he)
    · exact .inr (r4 e he)
  generalize netEvents damOpening (Net.new ⟨9092, []⟩ 0) ++ tr1 = tr at hpre hkind
  obtain ⟨s1, L⟩ := n1
  have hs1 : (⟨s1, L⟩ : Net) = damStuck s1.ds s1.clock s1.done s1.conns L := by
    have := r3.1
    show _ = (⟨{ damSys with ds := s1.ds, clock := s1.clock, done := s1.done, conns := s1.conns }, L⟩ : Net)
    exact congrArg (fun s => Net.mk s L) this
  have hlen : s1.conns.length = 1 := r3.2.trans damSys_one
  rw [hs1] at hpre
  have r2 : Held (fun _ => cap) L 0 := r2
  generalize s1.ds = ds, s1.clock = clk, s1.done = dn, s1.conns = cs at *
  clear r1 r3 hs1
  obtain ⟨st, t1, t2, t3⟩ := hpre.states
  generalize hN : damStuck ds clk dn cs L = N at *
  have hplays : (Net.play damEnd N).isSome = true := hN ▸ damEnd_plays ds clk dn cs L
  obtain ⟨c1, c2, c3, c4, c5⟩ := hN ▸ damEnd_calls ds clk dn cs L
  have hbusy := hN ▸ damEnd_busy ds clk dn cs L
  obtain ⟨w1, w2, w3, w4, w5, w6⟩ := hN ▸ damEnd_waits ds clk dn cs L
  have hq := hN ▸ damEnd_quiet ds clk dn cs L
  have hafter := fun i hi => netStAt_after damEnd N hplays i hi
  have hl : damEnd.length = 11 := rfl
  rw [hl] at hafter
  let p := tr.length
  let ns : Nat → Net := fun i => if i < p then st i else netStAt damEnd N (i - p)
  let es : Nat → NEv := fun i => if h : i < p then tr[i]'h else netEvAt damEnd N (i - p)
  have lo : ∀ i (h : i < p), ns i = st i ∧ es i = tr[i]'h := fun i h => ⟨if_pos h, dif_pos h⟩
  have hi : ∀ i, ns (p + i) = netStAt damEnd N i ∧ es (p + i) = netEvAt damEnd N i := fun i =>
    ⟨by show (if p + i < p then _ else _) = _; rw [if_neg (by omega), Nat.add_sub_cancel_left], by show (if h : p + i < p then _ else _) = _; rw [dif_neg (by omega), Nat.add_sub_cancel_left]⟩
  have le : ∀ i, i ≤ p → ns i = st i := by
    intro i h
    by_cases h' : i < p
    · exact (lo i h').1
    · obtain rfl : i = p := by omega
      have := (hi 0).1
      rw [Nat.add_zero] at this
      rw [this, t2]; rfl
  have cases_i : ∀ i, i < p ∨ ∃ j, i = p + j := fun i => by
    by_cases h : i < p
    · exact .inl h
    · exact .inr ⟨i - p, by omega⟩
  have end_quiet : ∀ j, damQuiet (netEvAt damEnd N j) = true := by
    intro j
    by_cases hj : j < 11
    · exact List.all_eq_true.1 hq j (List.mem_range.2 hj)
    · rw [(hafter j (by omega)).2]; rfl
  have kind : ∀ i, damQuiet (es i) = true ∨ serves0 (es i) = true := by
    intro i
    rcases cases_i i with h | ⟨j, rfl⟩
    · rw [(lo i h).2]; exact hkind _ (List.getElem_mem h)
    · rw [(hi j).2]; exact .inl (end_quiet j)
  have step : ∀ i, Net.Step (ns i) (es i) (ns (i + 1)) := by
    intro i
    rcases cases_i i with h | ⟨j, rfl⟩
    · rw [(lo i h).1, (lo i h).2, le (i + 1) h]
      exact (t3 i _ (List.getElem?_eq_getElem h)).1
    · rw [(hi j).1, (hi j).2, Nat.add_assoc, (hi (j + 1)).1]
      by_cases hj : j < 11
      · exact netAt_step damEnd N hplays j hj
      · rw [(hafter j (by omega)).1, (hafter j (by omega)).2, (hafter (j + 1) (by omega)).1]
        generalize netStAt damEnd N 11 = Z
        have := Net.Step.mock (n := Z) (.tick (s := Z.sys) 0) (show Carries (.tick 0) Z.links Z.links from rfl)
        simpa using this
  have h0 : ns 0 = Net.new ⟨9092, []⟩ 0 := by rw [le 0 (Nat.zero_le _), t1]
  have hsolo : ∀ n, solo (evOf es n) = true := fun n => quiet_solo (kind n)
  have hidle := fun n j => solo_idle (ss := sysOf ns) (es := evOf es) (sv := ⟨9092, []⟩) (clock := 0) (by show (ns 0).sys = _; rw [h0]; rfl) (fun n => inMock_step (step n)) hsolo n j
  have hapart := fun n => solo_apart (ss := sysOf ns) (es := evOf es) (sv := ⟨9092, []⟩) (clock := 0) (by show (ns 0).sys = _; rw [h0]; rfl) (fun n => inMock_step (step n)) hsolo n
  have late : ∀ i, p + 11 ≤ i → ns i = netStAt damEnd N 11 := by
    intro i h
    obtain ⟨j, rfl⟩ : ∃ j, i = p + j := ⟨i - p, by omega⟩
    rw [(hi j).1]
    exact (hafter j (by omega)).1
  have hwait : ∀ k, p + 9 < k → busy ((ns k).sys.api 0) := by
    intro k hk
    by_cases h : k = p + 10
    · rw [h, (hi 10).1, w1]; exact ⟨nofun, nofun⟩
    · rw [late k (by omega), w2]; exact ⟨nofun, nofun⟩
  refine ⟨ns, es, p, p + 8, p + 9, ⟨h0, step, ?_, ?_⟩, hapart, ⟨?_, ?_⟩, ⟨by omega, ?_, ?_⟩, by omega, ⟨?_, ?_⟩, hwait, ?_, kind⟩
  · intro n c hc
    rcases cases_i n with h | ⟨j, rfl⟩
    · rw [(lo n h).1]
      rw [(lo n h).2] at hc
      exact (t3 n _ (List.getElem?_eq_getElem h)).2 c hc
    · have := end_quiet j
      rw [(hi j).2] at hc
      unfold damQuiet at this
      rw [hc] at this
      simp at this
  · intro t ht n
    exfalso
    obtain ⟨m, m1, m2, m3⟩ := ht (p + 11)
    have hj := hidle m
    have hm := late m m1
    unfold sysOf at hj
    rw [hm] at m2 m3 hj
    cases t with
    | api i =>
      have m2 : ((netStAt damEnd N 11).sys.api i).ready _ := m2
      cases i with
      | zero => rw [w2] at m2; exact m2
      | succ i => rw [hj i] at m2; exact m2
    | run g =>
      obtain ⟨r, a, b⟩ := m2
      rw [w3] at a
      obtain rfl : g = 0 := by
        have := (List.getElem?_eq_some_iff.1 a).1
        simp at this; exact this
      cases a
      have b : (netStAt damEnd N 11).sys.active = 0 := b
      rw [w4] at b
      cases b
    | conn c =>
      obtain ⟨r, a, b⟩ := m2
      rw [w5] at a
      obtain rfl : c = 0 := by
        have := (List.getElem?_eq_some_iff.1 a).1
        omega
      refine m3 0 rfl ?_
      rw [w6]
      exact r2
  · show (ns p).sys.api 0 = _
    have := (hi 0).1
    rw [Nat.add_zero] at this
    rw [this, c1]
  · show inMock (es p) = _
    have := (hi 0).2
    rw [Nat.add_zero] at this
    rw [this, c4]; rfl
  · show (ns (p + 8)).sys.api 0 = _
    rw [(hi 8).1, c2]
  · intro j j1 j2
    obtain ⟨i, rfl⟩ : ∃ i, j = p + (i + 1) := ⟨j - p - 1, by omega⟩
    have := List.all_eq_true.1 hbusy i (List.mem_range.2 (by omega))
    show busy ((ns (p + (i + 1))).sys.api 0)
    rw [(hi (i + 1)).1]
    generalize (netStAt damEnd N (i + 1)).sys.api 0 = pc at this
    cases pc <;> first | (cases this; done) | exact ⟨nofun, nofun⟩
  · show (ns (p + 9)).sys.api 0 = _
    rw [(hi 9).1, c3]
  · show inMock (es (p + 9)) = _
    rw [(hi 9).2, c5]; rfl
  · intro k
    have mono : ∀ a b, a ≤ b → (ns a).sys.conns.length ≤ (ns b).sys.conns.length := by
      intro a b hab
      refine Classical.byContradiction fun hlt => ?_
      obtain ⟨c, hc⟩ : ∃ c, (ns b).sys.conns.length = c := ⟨_, rfl⟩
      have : ∃ tr, Sys.Run (ns a).sys tr (ns b).sys := by
        clear hlt hc
        induction hab with
        | refl => exact ⟨[], .nil _⟩
        | @step b _ ih => obtain ⟨tr, h⟩ := ih; exact ⟨_, h.append (.cons (inMock_step (step b)) (.nil _))⟩
      obtain ⟨tr, h⟩ := this
      have := Sys.Run.not_yet h (c := c) (by rw [List.getElem?_eq_none_iff]; omega)
      rw [List.getElem?_eq_none_iff] at this
      omega
    refine Nat.le_trans (mono k (p + 11 + k) (by omega)) ?_
    rw [late _ (by omega), w5, hlen]

/-! ### A client that reads beside one that does not -/

/-- Connection 1 has room for three bytes. -/
def jamCap (c : Nat) : Nat := if c = 1 then 3 else 1000

/-- Two clients connect. That of connection 1 asks and does not read, and the mock is stuck with the first bytes of the response. Then the other asks for a record and reads the response. -/
def jammed : List NPick := (starts 0 ++ opens 0 ++ accepts 0 ++ accepts 0 ++ caller 1 postOne 6).map .mock ++
  [.send 1 damReq, .mock (.conn 1), .mock (.conn 1), .mock (.recv 1 (.data damReq))] ++ List.replicate 5 (.mock (.conn 1)) ++
  [.send 0 (frame askFetch 7), .mock (.conn 0), .mock (.conn 0), .mock (.recv 0 (.data (frame askFetch 7)))] ++
  List.replicate 14 (.mock (.conn 0)) ++ [.receive 0 30, .receive 0 1000]

set_option maxRecDepth 100000 in
theorem jammed_plays : (Net.play jammed (Net.new ⟨9092, []⟩ 0)).isSome = true := by decide +kernel

def jammedRun : NetTimeline ⟨9092, []⟩ 0 := netCourse jammed jammed_plays

set_option maxRecDepth 100000 in
theorem jammed_conn : ∃ k k', (jammedRun.st 62).sys.conns = [k, k'] ∧ k.ctx = 0 ∧ k.pc = .body (.loop ([] : Bytes) (handleBody ⟨9092, []⟩) .ret) := by
  with_unfolding_all exact ⟨_, _, rfl, rfl, rfl⟩

set_option maxRecDepth 100000 in
theorem jammed_api (i : Nat) : (jammedRun.st 62).sys.api i = .idle := by
  match i with
  | 0 => with_unfolding_all rfl
  | 1 => with_unfolding_all rfl
  | i + 2 => with_unfolding_all rfl

set_option maxRecDepth 100000 in
theorem jammed_quiet : ((jammedRun.st 62).sys.runs.all fun r => r.pc == .accept) = true ∧ (jammedRun.st 62).sys.closes = [] ∧ (jammedRun.st 62).sys.isDone 0 = false ∧
    ((jammedRun.st 62).links 0).up = [] ∧ ((jammedRun.st 62).links 0).down = [] ∧ Held jamCap (jammedRun.st 62).links 1 := ⟨by decide +kernel, by with_unfolding_all rfl, by decide +kernel, by decide +kernel, by decide +kernel, by unfold Held; decide +kernel⟩

set_option maxRecDepth 100000 in
theorem jammed_ok : ((List.range 62).all fun n => servedOk (jammedRun.st 62).sys (jammedRun.ev n)) = true := by decide +kernel

set_option maxRecDepth 100000 in
theorem jammed_untold : ((List.range 62).all fun n => match (jammedRun.st n).sys.conns[0]? with
    | some k => !(jammedRun.st n).sys.isDone k.ctx
    | none => true) = true := by decide +kernel

set_option maxRecDepth 100000 in
theorem jammed_receives : ∃ b, b ≠ [] ∧ jammedRun.ev 61 = .receive 0 b := by
  obtain ⟨b, h⟩ : ∃ b, jammedRun.ev 61 = .receive 0 b := by with_unfolding_all exact ⟨_, rfl⟩
  have hb : (match jammedRun.ev 61 with | .receive _ b => decide (b ≠ []) | _ => false) = true := by decide +kernel
  rw [h] at hb
  exact ⟨b, by simpa using hb, h⟩

set_option maxRecDepth 100000 in
theorem jammed_records : ∀ t p, ∀ x ∈ ((jammedRun.st 62).sys.view 0).log t p, wireSize x < 2 ^ 31 :=
  (roomy_of (k := 0) (tr := []) (s2 := (jammedRun.st 62).sys) (by decide +kernel) (by decide)).records

/-- The goroutines that act are not stuck. -/
def unjammed (L : Nat → Link) (e : NEv) : Bool := match (inMock e).of with
  | some (.conn c) => decide ((L c).down.length ≤ jamCap c)
  | _ => true

set_option maxRecDepth 100000 in
theorem jammed_waits : ((List.range 62).all fun n => unjammed (jammedRun.st n).links (jammedRun.ev n)) = true := by decide +kernel

/-- The run, without end. -/
theorem jammed_endless : ∃ (ns : Nat → Net) (es : Nat → NEv), DamEndless jamCap ⟨9092, []⟩ 0 ns es ∧ (∀ n, 62 ≤ n → Held jamCap (ns n).links 1) ∧ Working ns es 0 ∧ RoomyOn (sysOf ns) (evOf es) 0 ∧ BelowLimit es 0 ∧
    (∀ n t p, ∀ x ∈ ((ns n).sys.view 0).log t p, wireSize x < 2 ^ 31) ∧ (∀ n, n ≤ 62 → ns n = jammedRun.st n) ∧ (∀ n, n < 62 → es n = jammedRun.ev n) ∧
    ∀ n, 62 ≤ n → es n = idleEv ((n - 62) % 3) := by
  obtain ⟨k, k', hc, hk, hp⟩ := jammed_conn
  obtain ⟨r1, r2, r3, r4, r5, r6⟩ := jammed_quiet
  have hapi := jammed_api
  have hrec := jammed_records
  obtain ⟨x, x0, xs, xp⟩ := idle_cycle (by rw [hc]; rfl) hp (by rw [hk]; exact r3)
  have hok := jammed_ok
  have hlast := fun n (hn : n < 62) => jammedRun.step n hn
  have hfirst := jammedRun.start
  have hun := jammed_untold
  have hw := jammed_waits
  obtain ⟨lb, hlb, hlb'⟩ := jammed_receives
  generalize jammedRun.st = st at *
  generalize jammedRun.ev = ev at *
  generalize hA : st 62 = A at *
  let ns : Nat → Net := fun n => if n < 62 then st n else x ((n - 62) % 3)
  let es : Nat → NEv := fun n => if n < 62 then ev n else idleEv ((n - 62) % 3)
  have lo : ∀ n, n < 62 → ns n = st n ∧ es n = ev n := fun n hn => ⟨if_pos hn, if_pos hn⟩
  have hi : ∀ n, 62 ≤ n → ns n = x ((n - 62) % 3) ∧ es n = idleEv ((n - 62) % 3) := fun n hn => ⟨if_neg (by omega), if_neg (by omega)⟩
  have hi' : ∀ n, 62 ≤ n → ∃ p, ns n = withProg A k p := fun n hn => by rw [(hi n hn).1]; exact xp _
  have hev : ∀ n, 62 ≤ n → es n = .mock (.unroll 0) ∨ es n = .mock (.conn 0 .isDone false) ∨ es n = .mock (.conn 0 .recv .timeout) := by
    intro n hn
    rw [(hi n hn).2]
    generalize (n - 62) % 3 = j
    match j with
    | 0 => exact .inl rfl
    | 1 => exact .inr (.inl rfl)
    | j + 2 => exact .inr (.inr rfl)
  have ok : ∀ n, servedOk A.sys (es n) = true := by
    intro n
    by_cases hn : n < 62
    · rw [(lo n hn).2]; exact List.all_eq_true.1 hok n (List.mem_range.2 hn)
    · rcases hev n (by omega) with e | e | e <;> rw [e] <;> rfl
  have step : ∀ n, Net.Step (ns n) (es n) (ns (n + 1)) := by
    intro n
    by_cases hn : n < 62
    · rw [(lo n hn).1, (lo n hn).2]
      have := hlast n hn
      by_cases hn' : n + 1 < 62
      · rw [(lo _ hn').1]; exact this
      · have e : n + 1 = 62 := by omega
        rw [(hi (n + 1) (by omega)).1, e]
        show Net.Step _ _ (x 0)
        rw [x0, ← hA, ← e]
        exact this
    · rw [(hi n (by omega)).1, (hi n (by omega)).2, (hi (n + 1) (by omega)).1]
      have := xs (n - 62)
      rwa [show n + 1 - 62 = n - 62 + 1 by omega]
  have view : ∀ n, ∃ m, n ≤ m ∧ (ns m).sys.view 0 = A.sys.view 0 := by
    intro n
    obtain ⟨p, hp⟩ := hi' (max n 62) (Nat.le_max_right ..)
    exact ⟨max n 62, Nat.le_max_left .., by rw [hp]; rfl⟩
  have stuck : ∀ n, 62 ≤ n → (ns n).links = A.links := fun n hn => by obtain ⟨p, hp⟩ := hi' n hn; rw [hp]; rfl
  have hE : DamEndless jamCap ⟨9092, []⟩ 0 ns es := by
    refine ⟨by rw [(lo 0 (by decide)).1]; exact hfirst, step, ?_, ?_⟩
    · intro n c hn hh
      by_cases h : n < 62
      · have := List.all_eq_true.1 hw n (List.mem_range.2 h)
        rw [(lo n h).2] at hn
        rw [(lo n h).1] at hh
        simp only [unjammed, hn, decide_eq_true_eq] at this
        exact absurd hh.2 (by omega)
      · have hc0 : c = 0 := by rcases hev n (by omega) with e | e | e <;> rw [e] at hn <;> cases hn <;> rfl
        rw [hc0, stuck n (by omega)] at hh
        have := hh.2
        rw [r5] at this
        exact Nat.not_lt_zero _ this
    intro t ht n
    obtain ⟨m, m1, m2, m3⟩ := ht 62
    rw [stuck m m1] at m3
    obtain ⟨p, hp⟩ := hi' m m1
    rw [hp] at m2
    cases t with
    | api i =>
      have m2 : ((A.sys.api i).ready _ : Prop) := m2
      rw [hapi] at m2
      cases m2
    | run g =>
      obtain ⟨r, a, b⟩ := m2
      have := List.all_eq_true.1 r1 r (List.mem_of_getElem? (show A.sys.runs[g]? = some r from a))
      have : r.pc = .accept := by simpa using this
      rw [this] at b
      have b : g ∈ A.sys.closes := b
      rw [r2] at b
      cases b
    | conn c =>
      obtain ⟨r, a, b⟩ := m2
      cases c with
      | zero =>
        refine ⟨62 + 3 * n, by omega, ?_⟩
        rw [(hi _ (by omega)).2, show 62 + 3 * n - 62 = 3 * n by omega, Nat.mul_mod_right]
        rfl
      | succ c =>
        have a : (A.sys.conns.set 0 { k with pc := .body p })[c + 1]? = some r := a
        rw [hc] at a
        cases c with
        | zero => exact absurd r6 (m3 1 rfl)
        | succ c => cases a
  refine ⟨ns, es, hE, fun n hn => by rw [stuck n hn]; exact r6, ?_, ?_, ?_, ?_, ?_, fun n hn => (lo n hn).2, fun n hn => (hi n hn).2⟩
  · refine ⟨⟨62, ?_⟩, ?_, ?_, ?_, ?_, ?_⟩
    · rw [(hi 62 (by omega)).1]
      show (x 0).sys.conns[0]? ≠ none
      rw [x0, hc]
      exact fun h => nomatch h
    · intro n c hn
      by_cases h : n < 62
      · rw [(lo n h).1] at hn ⊢
        have := List.all_eq_true.1 hun n (List.mem_range.2 h)
        rw [hn] at this
        simpa using this
      · obtain ⟨p, e⟩ := hi' n (by omega)
        rw [e] at hn ⊢
        have hn : (A.sys.conns.set 0 { k with pc := .body p })[0]? = some c := hn
        rw [hc] at hn
        cases hn
        show A.sys.isDone k.ctx = false
        rw [hk]; exact r3
    · intro n e
      have := ok n
      rw [e] at this
      cases this
    · intro n b e
      have := ok n
      rw [e] at this
      cases this
    · intro n h
      exfalso
      obtain ⟨p, e⟩ := hi' (max n 62) (Nat.le_max_right ..)
      have := h _ (Nat.le_max_left n 62)
      rw [e] at this
      exact this r4
    · intro n h
      by_cases hn : n < 62
      · exact ⟨61, lb, by omega, hlb, by rw [(lo 61 (by decide)).2]; exact hlb'⟩
      · obtain ⟨p, e⟩ := hi' n (by omega)
        rw [e] at h
        exact absurd r5 h
  · rintro n m q ⟨b, _, hb, _⟩ hq
    have h1 := ok b
    have hb : inMock (es b) = .conn 0 (.reqBegin m) () := hb
    have hb : es b = .mock (.conn 0 (.reqBegin m) ()) := by
      cases e : es b <;> rw [e] at hb
      · exact congrArg _ hb
      · cases hb
      · cases hb
    rw [hb] at h1
    simp only [servedOk, hq, decide_eq_true_eq] at h1
    obtain ⟨N, N1, N2⟩ := view n
    obtain ⟨l, _, hl⟩ := hE.net.run_from N1
    obtain ⟨l', hl', _⟩ := hl.sys.steps 0
    rw [N2] at hl'
    exact Room.before hl' h1
  · intro n b okb e
    have := ok n
    rw [e] at this
    simp only [servedOk, Bool.and_eq_true, decide_eq_true_eq] at this
    omega
  · intro n t p r hr
    obtain ⟨N, N1, N2⟩ := view n
    obtain ⟨l, _, hl⟩ := hE.net.run_from N1
    obtain ⟨l', hl', _⟩ := hl.sys.steps 0
    rw [N2] at hl'
    exact hrec t p r (by rw [hl'.log t p]; exact List.mem_append_left _ hr)
  · intro n hn
    by_cases h : n < 62
    · exact (lo n h).1
    · have e : n = 62 := by omega
      subst e
      rw [(hi 62 (by omega)).1, hA]
      exact x0

set_option maxRecDepth 100000 in
theorem jammed_asked : (frames (asked 0 (upTo jammedRun.ev 62)))[0]? = some (askFetch.message 7 (some [99])) := by decide +kernel

/-- The hypotheses of `C121`: a client asks for a record and reads, while the mock is stuck with the response to another, for ever. -/
example : ∃ (ns : Nat → Net) (es : Nat → NEv), DamEndless jamCap ⟨9092, []⟩ 0 ns es ∧ (∀ n, 62 ≤ n → Held jamCap (ns n).links 1) ∧ Working ns es 0 ∧ RoomyOn (sysOf ns) (evOf es) 0 ∧
    BelowLimit es 0 ∧ (frames (asked 0 (upTo es 62)))[0]? = some (askFetch.message 7 (some [99])) := by
  obtain ⟨ns, es, h1, h2, h3, h4, h5, _, _, h8, _⟩ := jammed_endless
  refine ⟨ns, es, h1, h2, h3, h4, h5, ?_⟩
  rw [show upTo es 62 = upTo jammedRun.ev 62 from List.map_congr_left fun m hm => h8 m (by have := List.mem_range.1 hm; omega)]
  exact jammed_asked

/-- A run in which no goroutine acts while it is stuck. -/
theorem NetEndless.dam {cap : Nat → Nat} {sv : Server} {clock : Int} {ns : Nat → Net} {es : Nat → NEv} (h : NetEndless sv clock ns es)
    (hw : ∀ n c, (inMock (es n)).of = some (.conn c) → ¬ Held cap (ns n).links c) : DamEndless cap sv clock ns es :=
  ⟨h.first, h.step, hw, fun t ht => h.fair t trivial fun n => by obtain ⟨m, m1, m2, _⟩ := ht n; exact ⟨m, m1, m2⟩⟩

set_option maxRecDepth 100000 in
theorem poll_unjammed : ((List.range 46).all fun n => unjammed (servedRun.st n).links (servedRun.ev n)) = true ∧ ((List.range 18).all fun n => unjammed (pollSt n).links (pollEv n)) = true := by
  constructor <;> decide +kernel

theorem unjammed_waits {L : Nat → Link} {e : NEv} (h : unjammed L e = true) (c : Nat) (hc : (inMock e).of = some (.conn c)) : ¬ Held jamCap L c := fun hh => by
  simp only [unjammed, hc, decide_eq_true_eq] at h
  exact absurd hh.2 (by omega)

/-- The hypotheses of `C121_records`: a record is posted, and a client asks for records again and again. -/
example : ∃ (ns : Nat → Net) (es : Nat → NEv) (sa : Sys) (tc : List SEv), DamEndless jamCap ⟨9092, []⟩ 0 ns es ∧ CallRun sa 1 firstPost.call tc (ns 25).sys ∧ Working ns es 0 ∧
    RoomyOn (sysOf ns) (evOf es) 0 ∧ BelowLimit es 0 ∧ (∀ n (i : Nat) r, (frames (got 0 (upTo es n)))[i]? = some r → r.length + 4 < 2 ^ 31) ∧
    (∀ n t p, ∀ x ∈ ((ns n).sys.view 0).log t p, wireSize x < 2 ^ 31) ∧ Consuming es 0 firstPost.topic (BitVec.ofInt 32 firstPost.partition) 0 id pollGets ∧
    (∀ n, (0 : I64).toInt + (((ns n).sys.view 0).log firstPost.topic (BitVec.ofInt 32 firstPost.partition)).length < 2 ^ 63) := by
  obtain ⟨ns, es, sa, tc, h1, h2, h3, h4, h5, h6, h7, h8, h9, _, a1, a2, a3, a4⟩ := poll_case
  refine ⟨ns, es, sa, tc, h1.dam fun n c hc => ?_, h2, h3, h4, h5, h6, h7, h8, h9⟩
  by_cases hn : n < 46
  · rw [a2 n hn] at hc
    rw [a1 n (by omega)]
    exact unjammed_waits (List.all_eq_true.1 poll_unjammed.1 n (List.mem_range.2 hn)) c hc
  · rw [a3 n (by omega)] at hc
    rw [a4 n (by omega)]
    exact unjammed_waits (List.all_eq_true.1 poll_unjammed.2 _ (List.mem_range.2 (Nat.mod_lt _ (by decide)))) c hc

/-- Nothing waits on a connection that the mock has not accepted. -/
theorem down_accepted {sv : Server} {clock : Int} {n : Net} {tr : List NEv} (h : Net.Run (Net.new sv clock) tr n) (c : Nat) (hc : n.sys.conns[c]? = none) : (n.links c).down = [] := by
  have main : ∀ {n n' : Net} {tr : List NEv}, Net.Run n tr n' → n'.sys.conns[c]? = none → (n.links c).down = [] → (n'.links c).down = [] := by
    intro n n' tr h
    induction h with
    | nil => exact fun _ h => h
    | @cons n n1 n2 e es h hs ih =>
      intro h1 h2
      have h3 := Sys.Run.not_yet hs.sys h1
      refine ih h1 ?_
      by_cases he : (inMock e).of = some (.conn c)
      · have hst := inMock_step h
        have := Sys.Run.not_yet (.cons hst (.nil _)) h3
        obtain ⟨k, k1, _⟩ := step_conn_self hst he
        rw [this] at k1
        cases k1
      · have := (link_quiet h he).2
        rw [h2] at this
        exact List.eq_nil_of_length_eq_zero (Nat.le_zero.1 this)
  exact main h hc rfl

/-- The hypotheses of `C121_reading`. -/
example : ∃ (ns : Nat → Net) (es : Nat → NEv), DamEndless jamCap ⟨9092, []⟩ 0 ns es ∧ (∀ c, Receiving ns es c ∨ ∃ n, ((ns n).links c).broken = true) ∧ ∀ n, ∃ m b, n ≤ m ∧ b ≠ [] ∧ es m = .receive 0 b := by
  obtain ⟨ns, es, sa, tc, h1, h2, h3, h4, h5, h6, h7, h8, h9, _, a1, a2, a3, a4⟩ := poll_case
  refine ⟨ns, es, h1.dam fun n c hc => ?_, fun c => .inl ?_, ?_⟩
  · by_cases hn : n < 46
    · rw [a2 n hn] at hc
      rw [a1 n (by omega)]
      exact unjammed_waits (List.all_eq_true.1 poll_unjammed.1 n (List.mem_range.2 hn)) c hc
    · rw [a3 n (by omega)] at hc
      rw [a4 n (by omega)]
      exact unjammed_waits (List.all_eq_true.1 poll_unjammed.2 _ (List.mem_range.2 (Nat.mod_lt _ (by decide)))) c hc
  · cases c with
    | zero => exact h3.receives
    | succ c =>
      intro n hn
      refine absurd (down_accepted (h1.run n) (c + 1) ?_) hn
      obtain ⟨l, _, hl⟩ := h1.run_from (n := n) (m := n + 46) (by omega)
      refine Sys.Run.not_yet hl.sys ?_
      rw [a4 (n + 46) (by omega)]
      have := (poll_still ((n + 46 - 46) % 18) (by omega)).2.2.2.1
      obtain ⟨k, hk, _⟩ := served_conn
      rw [hk] at this
      rw [List.getElem?_eq_none_iff, this]
      simp
  · intro n
    obtain ⟨lb, hlb, hlb'⟩ := poll_receives
    exact ⟨46 + 18 * n + 17, lb, by omega, hlb, by rw [a3 _ (by omega), show (46 + 18 * n + 17 - 46) % 18 = 17 by omega]; exact hlb'⟩

end KM.Props
