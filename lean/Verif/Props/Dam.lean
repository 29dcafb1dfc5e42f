import Verif.Props.Polls
import Verif.Props.Live
/-
C121: clients that do not read what the mock writes to them. In the other files a `Write` (/repo/kafka-message.go:33-48) ends at once. In truth it ends when the connection has taken all
its bytes, and a connection has room for so many bytes only that its client has not received. The mock sets no deadline for its writes. Here a write that finds no room lasts.
-/
namespace KM.Props
open KM KM.Spec

/-- The mock is still writing to connection `c`: it has room for `cap c` bytes that the client has not received. A write is taken to happen when it begins; what does not fit yet is the
end of what lies in `down`. After an error the connection takes no more bytes and `Write` returns. -/
def Held (cap : Nat → Nat) (L : Nat → Link) (c : Nat) : Prop := (L c).broken = false ∧ cap c < (L c).down.length

/-- An endless run of the mock with its clients, in which a goroutine that writes to a connection waits until there is room. The scheduler is fair: a goroutine that can act again and again
acts again and again. -/
structure DamEndless (cap : Nat → Nat) (sv : Server) (clock : Int) (ns : Nat → Net) (es : Nat → NEv) : Prop where
  first : ns 0 = Net.new sv clock
  step : ∀ n, Net.Step (ns n) (es n) (ns (n + 1))
  waits : ∀ n c, (inMock (es n)).of = some (.conn c) → ¬ Held cap (ns n).links c
  fair : ∀ t, (∀ n, ∃ m, n ≤ m ∧ (ns m).sys.ready t ∧ ∀ c, t = .conn c → ¬ Held cap (ns m).links c) → ∀ n, ∃ m, n ≤ m ∧ (inMock (es m)).of = some t

/-- A goroutine is not stuck in a write for ever. -/
def Flowing (cap : Nat → Nat) (ns : Nat → Net) : Goroutine → Prop
  | .conn c => ∀ n, ∃ m, n ≤ m ∧ ¬ Held cap (ns m).links c
  | _ => True

variable {cap : Nat → Nat} {sv : Server} {clock : Int} {ns : Nat → Net} {es : Nat → NEv}

/-! ### Without steps of its goroutine nothing is added to what waits for a client -/

theorem actsOf_quiet {e : SEv} {c : Nat} (h : e.of ≠ some (.conn c)) : actsOf c [e] = [] := by
  cases e with
  | conn d a r => exact actsOf_else fun he => h (by rw [he]; rfl)
  | _ => rfl

theorem link_quiet {n n' : Net} {e : NEv} (h : Net.Step n e n') {c : Nat} (he : (inMock e).of ≠ some (.conn c)) :
    (n'.links c).broken = (n.links c).broken ∧ (n'.links c).down.length ≤ (n.links c).down.length := by
  cases h with
  | @mock e s L h hl =>
    have := carries_at hl c
    rw [actsOf_quiet (show e.of ≠ _ from he)] at this
    show (L c).broken = _ ∧ (L c).down.length ≤ _
    generalize L c = k at this ⊢
    cases this
    exact ⟨rfl, Nat.le_refl _⟩
  | send d b =>
    by_cases hd : c = d
    · subst hd; simp [setLink]
    · simp [setLink, hd]
  | @receive d b rest h =>
    by_cases hd : c = d
    · subst hd; simp [setLink, h]
    · simp [setLink, hd]

theorem held_quiet {n n' : Net} {e : NEv} (h : Net.Step n e n') {c : Nat} (he : (inMock e).of ≠ some (.conn c)) (hh : Held cap n'.links c) : Held cap n.links c := by
  obtain ⟨h1, h2⟩ := link_quiet h he
  exact ⟨h1 ▸ hh.1, Nat.lt_of_lt_of_le hh.2 h2⟩

theorem broken_stays {n n' : Net} {e : NEv} (h : Net.Step n e n') {c : Nat} (hb : (n.links c).broken = true) : (n'.links c).broken = true := by
  cases h with
  | @mock e s L h hl =>
    have := carries_at hl c
    show (L c).broken = true
    generalize L c = k at this ⊢
    generalize n.links c = k0 at this hb
    generalize actsOf c [e] = l at this
    cases this <;> first | exact hb | rfl
  | send d b =>
    by_cases hd : c = d
    · subst hd; simp [setLink, hb]
    · simp [setLink, hd, hb]
  | @receive d b rest h =>
    by_cases hd : c = d
    · subst hd; simp [setLink, hb]
    · simp [setLink, hd, hb]

/-- The scheduler is fair to all goroutines that are not stuck in a write. -/
theorem DamEndless.net (h : DamEndless cap sv clock ns es) : NetEndless sv clock ns es (Flowing cap ns) := by
  refine ⟨h.first, h.step, fun t ht hr => ?_⟩
  cases t with
  | conn c =>
    refine Classical.byContradiction fun hno => ?_
    obtain ⟨n, hn⟩ := Classical.not_forall.1 hno
    have quiet : ∀ m, n ≤ m → (inMock (es m)).of ≠ some (.conn c) := fun m h1 h2 => hn ⟨m, h1, h2⟩
    obtain ⟨n1, h1, h2⟩ := ht n
    have free : ∀ m, n1 ≤ m → ¬ Held cap (ns m).links c := by
      intro m hm
      induction hm with
      | refl => exact h2
      | @step m hm ih => exact fun hh => ih (held_quiet (h.step m) (quiet m (Nat.le_trans h1 hm)) hh)
    refine hno (h.fair (.conn c) fun k => ?_)
    obtain ⟨m, m1, m2⟩ := hr (max k n1)
    exact ⟨m, by omega, m2, fun d hd => by cases hd; exact free m (by omega)⟩
  | api i =>
    refine h.fair _ fun k => ?_
    obtain ⟨m, m1, m2⟩ := hr k
    exact ⟨m, m1, m2, nofun⟩
  | run g =>
    refine h.fair _ fun k => ?_
    obtain ⟨m, m1, m2⟩ := hr k
    exact ⟨m, m1, m2, nofun⟩

/-- The client of connection `c` reads: it receives what waits for it. -/
def Receiving (ns : Nat → Net) (es : Nat → NEv) (c : Nat) : Prop := ∀ n, ((ns n).links c).down ≠ [] → ∃ m b, n ≤ m ∧ b ≠ [] ∧ es m = .receive c b

theorem DamEndless.flows (h : DamEndless cap sv clock ns es) {c : Nat} (hr : Receiving ns es c ∨ ∃ n, ((ns n).links c).broken = true) : Flowing cap ns (.conn c) := by
  intro n
  refine Classical.byContradiction fun hno => ?_
  have held : ∀ m, n ≤ m → Held cap (ns m).links c := fun m hm => Classical.byContradiction fun h => hno ⟨m, hm, h⟩
  have quiet : ∀ m, n ≤ m → (inMock (es m)).of ≠ some (.conn c) := fun m h1 h2 => h.waits m c h2 (held m h1)
  rcases hr with hr | ⟨n0, h0⟩
  · have down : ∀ a b, n ≤ a → a ≤ b → ((ns b).links c).down.length ≤ ((ns a).links c).down.length := by
      intro a b ha hab
      induction hab with
      | refl => exact Nat.le_refl _
      | @step b hab ih => exact Nat.le_trans (link_quiet (h.step b) (quiet b (Nat.le_trans ha hab))).2 ih
    have : ∀ l m, n ≤ m → ((ns m).links c).down.length ≤ l → False := by
      intro l
      induction l with
      | zero =>
        intro m hm hl
        have := (held m hm).2
        omega
      | succ l ih =>
        intro m hm hl
        obtain ⟨k, b, k1, k2, k3⟩ := hr m fun e => by
          have := (held m hm).2
          rw [e] at this
          exact Nat.not_lt_zero _ this
        have hst := h.step k
        have hd := down m k hm k1
        rw [k3] at hst
        refine ih (k + 1) (by omega) ?_
        generalize ns (k + 1) = s' at hst
        cases hst with
        | @receive _ _ rest hx =>
          have hp : 0 < b.length := List.length_pos_of_ne_nil k2
          rw [hx, List.length_append] at hd
          show (setLink _ c _ c).down.length ≤ l
          simp only [setLink, if_pos]
          omega
    exact this _ n (Nat.le_refl _) (Nat.le_refl _)
  · have broken : ∀ m, n0 ≤ m → ((ns m).links c).broken = true := by
      intro m hm
      induction hm with
      | refl => exact h0
      | @step m _ ih => exact broken_stays (h.step m) ih
    have := (held (max n n0) (by omega)).1
    rw [broken _ (by omega)] at this
    cases this

/-! ### Only connections that serve write -/

theorem DamEndless.held_serves (h : DamEndless cap sv clock ns es) (n c : Nat) (hh : Held cap (ns n).links c) : ∃ k p, (ns n).sys.conns[c]? = some k ∧ k.pc = .body p := by
  induction n with
  | zero =>
    rw [h.first] at hh
    exact absurd hh.2 (Nat.not_lt_zero _)
  | succ n ih =>
    by_cases he : (inMock (es n)).of = some (.conn c)
    · have hst := h.step n
      have hno := h.waits n c he
      have hs := inMock_step hst
      generalize es n = e at he hst hs
      cases e with
      | mock e =>
        obtain ⟨k, k1, k2⟩ := step_conn_self hs he
        have he : e.of = some (.conn c) := he
        have same : actsOf c [e] = [] → (ns (n + 1)).links c = (ns n).links c := by
          intro hx
          generalize ns (n + 1) = s' at hst
          cases hst with
          | @mock _ _ L _ hl =>
            have := carries_at hl c
            rw [hx] at this
            show L c = _
            generalize L c = k at this ⊢
            cases this
            rfl
        have held : actsOf c [e] = [] → False := fun hx => hno (by unfold Held; rw [← same hx]; exact hh)
        cases e with
        | conn d a r =>
          cases k2 with
          | act hp he ha hk => exact ⟨_, _, hk, rfl⟩
          | loop hp hk => exact ⟨_, _, hk, rfl⟩
          | ret hp hk =>
            cases he
            generalize (ns (n + 1)).sys = s' at hs
            cases hs with
            | conn hc hq => rw [hc] at k1; cases k1; rw [hp] at hq; cases hq
          | oc hp hk =>
            cases he
            generalize (ns (n + 1)).sys = s' at hs
            cases hs with
            | conn hc hq => rw [hc] at k1; cases k1; rw [hp] at hq; cases hq
        | _ => exact (held rfl).elim
      | send => cases he
      | receive => cases he
    · obtain ⟨k, p, k1, k2⟩ := ih (held_quiet (h.step n) he hh)
      exact ⟨k, p, step_conn_other (inMock_step (h.step n)) k1 he, k2⟩

theorem not_serving_stays {s s' : Sys} {e : SEv} (h : Sys.Step s e s') {c : Nat} {k : ConnG} (hk : s.conns[c]? = some k) (hp : ∀ p, k.pc ≠ .body p) :
    ∃ k', s'.conns[c]? = some k' ∧ ∀ p, k'.pc ≠ .body p := by
  by_cases he : e.of = some (.conn c)
  · obtain ⟨k0, k1, k2⟩ := step_conn_self h he
    rw [hk] at k1
    cases k1
    cases k2 with
    | act h1 => exact absurd h1 (hp _)
    | loop h1 => exact absurd h1 (hp _)
    | ret h1 => exact absurd h1 (hp _)
    | @oc o h1 h2 => exact ⟨_, h2, fun p => by cases o <;> nofun⟩
  · exact ⟨k, step_conn_other h hk he, hp⟩

theorem DamEndless.lively (h : DamEndless cap sv clock ns es) : Lively (Flowing cap ns) (sysOf ns) := by
  refine ⟨fun _ => trivial, fun _ => trivial, fun n c k o hk ho j => ?_⟩
  have stays : ∀ m, n ≤ m → ∃ k', (ns m).sys.conns[c]? = some k' ∧ ∀ p, k'.pc ≠ .body p := by
    intro m hm
    induction hm with
    | refl => exact ⟨k, hk, fun p => by rw [ho]; nofun⟩
    | @step m _ ih =>
      obtain ⟨k', h1, h2⟩ := ih
      exact not_serving_stays (inMock_step (h.step m)) h1 h2
  refine ⟨max j n, by omega, fun hh => ?_⟩
  obtain ⟨k1, p, h1, h2⟩ := h.held_serves _ c hh
  obtain ⟨k2, h3, h4⟩ := stays (max j n) (by omega)
  rw [h1] at h3
  cases h3
  exact h4 p h2

/-! ### C121 -/

/-- **C121**, the clients that read: a request of a client that reads is answered, whatever the other clients leave unread (C108). -/
theorem C121 (h : DamEndless cap sv clock ns es) {c : Nat} (w : Working ns es c) (hr : RoomyOn (sysOf ns) (evOf es) c) (hs : BelowLimit es c) {n i : Nat} {msg : Bytes}
    (hm : (frames (asked c (upTo es n)))[i]? = some msg) :
    ∃ m r req corr client t1 s1 te s2, n ≤ m ∧ (frames (got c (upTo es m)))[i]? = some r ∧ Accepted req corr client msg ∧ FitsBuffer req corr client ∧
      Exchange sv clock c req corr t1 s1 te s2 ∧ Framed (sent (actsOf c te)) [r] :=
  C108 h.net w hr hs hm (h.flows (.inl w.receives))

/-- **C121**, the records: a record posted reaches every client that reads and asks for it again and again (C109), whatever the other clients leave unread. -/
theorem C121_records (h : DamEndless cap sv clock ns es) {sa : Sys} {a s : Nat} {call : PostCall} {tc : List SEv} (hcall : CallRun sa a call.call tc (ns s).sys) :
    ∃ (pos : Nat) (rec : Record), call.Matches sa.clock (ns s).sys.clock rec ∧ ((sa.view 0).log call.topic (BitVec.ofInt 32 call.partition)).length ≤ pos ∧
      ∀ (c : Nat) (first : I64) (idx : Nat → Nat) (ms : Nat → List MessageV1), Working ns es c → RoomyOn (sysOf ns) (evOf es) c → BelowLimit es c →
        (∀ n (i : Nat) r, (frames (got c (upTo es n)))[i]? = some r → r.length + 4 < 2 ^ 31) → (∀ n t p, ∀ x ∈ ((ns n).sys.view 0).log t p, wireSize x < 2 ^ 31) →
        Consuming es c call.topic (BitVec.ofInt 32 call.partition) first idx ms → 0 ≤ first.toInt → first.toInt ≤ pos →
        (∀ n, first.toInt + (((ns n).sys.view 0).log call.topic (BitVec.ofInt 32 call.partition)).length < 2 ^ 63) →
        ∃ k m, ((List.range k).flatMap ms)[pos - first.toInt.toNat]? = some m ∧ m.offset = BitVec.ofNat 64 pos ∧ m.timestamp = rec.timestamp ∧ m.key = call.key ∧ m.value = call.value :=
  C109_all h.net hcall fun _ w => h.flows (.inl w.receives)

/-- **C121**, `RequestStop`: it returns, whatever the clients leave unread. -/
theorem C121_requestStop (h : DamEndless cap sv clock ns es) (ha : ∀ n, Apart (ns n).sys) {i n : Nat} (hc : CallsAt (sysOf ns) (evOf es) i .requestStop n) :
    ∃ m, ReturnsAt (sysOf ns) i n m ∧ (ns m).sys.stopped = true :=
  C68_requestStop ⟨h.net.endless, ha⟩ hc h.lively

/-- **C121**, when every client reads or its connection has failed: the run is one of those of which the other files speak, in which a write ends at once. -/
theorem C121_reading (h : DamEndless cap sv clock ns es) (hr : ∀ c, Receiving ns es c ∨ ∃ n, ((ns n).links c).broken = true) : NetEndless sv clock ns es := by
  refine ⟨h.first, h.step, fun t _ => h.net.fair t ?_⟩
  cases t with
  | conn c => exact h.flows (hr c)
  | _ => exact trivial

end KM.Props
