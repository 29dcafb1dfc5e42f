import Verif.Props.Strict
import Verif.Props.Answered
/-
C105: a conversation on a connection is a sequence of exchanges. What the client has sent is a sequence of requests, and what the mock has sent is, in the same order, one
response for each of them, each of which the properties of single requests (C59, C60, C71, ...) describe.
-/
namespace KM.Props
open KM KM.Spec

theorem send_done {c : I32} {payload : Bytes} {l : List REv} (h : Own (send c payload) l (.ret .done)) (ha : AllSent l) : sent l ≠ [] := by
  rcases own_act_inv h with ⟨e, _⟩ | ⟨ok, l1, rfl, _⟩
  · cases e
  · cases ok with
    | false => exact absurd List.mem_cons_self (ha _)
    | true =>
      intro hn
      have : (responseSize payload) ++ sent l1 = [] := hn
      have h1 := congrArg List.length this
      simp [responseSize, encodeInt32] at h1

/-- A request that is processed without error and without a failed write has been answered. -/
theorem done_sent {sv : Server} {m : Bytes} {n : Nat} {l : List REv} (h : Own (dispatcher sv ⟨m⟩ n) l (.ret .done)) (ha : AllSent l) : sent l ≠ [] := by
  rcases dispatcher_own h with ⟨_, e⟩ | ⟨l1, l2, c, payload, rfl, h1, _, h2⟩
  · exact absurd rfl e
  · rw [sent_silent h1]
    exact send_done h2 fun b hb => ha b (List.mem_append_right _ hb)

/-- What a connection has done when it reads or closes: it has processed messages, one after the other, and written nothing in between. -/
theorem outer_segments {sv : Server} {inb : Bytes} {l : List REv} {q : Prog Unit} (h : Conv sv inb l q) {l1 l2 : List REv} {e : REv} (ho : e.act = .recv ∨ e.act = .close)
    (hl : l = l1 ++ e :: l2) : ∃ segs : List (Bytes × List REv), served l1 = segs.map (·.1) ∧ sent l1 = (segs.map fun x => sent x.2).flatten ∧
      ∀ (i : Nat) (x : Bytes × List REv), segs[i]? = some x → ∃ a b, l1 = a ++ ⟨.reqBegin x.1, ()⟩ :: (x.2 ++ ⟨.reqEnd, ()⟩ :: b) ∧ (served a).length = i ∧
        Own (dispatcher sv ⟨x.1⟩ x.1.length) x.2 (.ret .done) := by
  have hne : ∀ {l : List REv}, (∀ e ∈ l, Inner e.act) → e ∉ l := fun h he => by
    have := h _ he
    rcases ho with x | x <;> rw [x] at this <;> exact this
  have no : ∀ {x : REv}, x.act ≠ .recv → x.act ≠ .close → x ≠ e := fun h1 h2 h3 => by
    rcases ho with x | x <;> rw [← h3] at x
    · exact h1 x
    · exact h2 x
  have here : ∀ {d : Bool}, ∃ segs : List (Bytes × List REv), served [⟨.isDone, d⟩] = segs.map (·.1) ∧ sent [⟨.isDone, d⟩] = (segs.map fun x => sent x.2).flatten ∧
      ∀ (i : Nat) (x : Bytes × List REv), segs[i]? = some x → ∃ a b, [⟨.isDone, d⟩] = a ++ ⟨.reqBegin x.1, ()⟩ :: (x.2 ++ ⟨.reqEnd, ()⟩ :: b) ∧ (served a).length = i ∧
        Own (dispatcher sv ⟨x.1⟩ x.1.length) x.2 (.ret .done) := ⟨[], rfl, rfl, fun i x h => by cases h⟩
  have more : ∀ (pre : List REv) {l1 : List REv}, (∀ l, served (pre ++ l) = served l) → (∀ l, sent (pre ++ l) = sent l) →
      (∃ segs : List (Bytes × List REv), served l1 = segs.map (·.1) ∧ sent l1 = (segs.map fun x => sent x.2).flatten ∧
        ∀ (i : Nat) (x : Bytes × List REv), segs[i]? = some x → ∃ a b, l1 = a ++ ⟨.reqBegin x.1, ()⟩ :: (x.2 ++ ⟨.reqEnd, ()⟩ :: b) ∧ (served a).length = i ∧
          Own (dispatcher sv ⟨x.1⟩ x.1.length) x.2 (.ret .done)) →
      ∃ segs : List (Bytes × List REv), served (pre ++ l1) = segs.map (·.1) ∧ sent (pre ++ l1) = (segs.map fun x => sent x.2).flatten ∧
        ∀ (i : Nat) (x : Bytes × List REv), segs[i]? = some x → ∃ a b, pre ++ l1 = a ++ ⟨.reqBegin x.1, ()⟩ :: (x.2 ++ ⟨.reqEnd, ()⟩ :: b) ∧ (served a).length = i ∧
          Own (dispatcher sv ⟨x.1⟩ x.1.length) x.2 (.ret .done) := by
    rintro pre l1 h1 h2 ⟨segs, h3, h4, h5⟩
    refine ⟨segs, by rw [h1, h3], by rw [h2, h4], fun i x hx => ?_⟩
    obtain ⟨a, b, h6, h7, h8⟩ := h5 i x hx
    exact ⟨pre ++ a, b, by rw [h6, List.append_assoc], by rw [h1, h7], h8⟩
  induction h generalizing l1 with
  | head => cases l1 <;> cases hl
  | part hn h _ =>
    rcases h with rfl | ⟨d, rfl⟩ | rfl | ⟨r, rfl⟩
    · cases l1 <;> cases hl
    · rcases l1 with _ | ⟨_, _ | _⟩
      · exact absurd (List.cons.inj hl).1 (no nofun nofun)
      · cases hl
      · cases hl
    · rcases l1 with _ | ⟨_, _ | ⟨_, _ | _⟩⟩
      · exact absurd (List.cons.inj hl).1 (no nofun nofun)
      · cases hl; exact here
      · cases hl
      · cases hl
    · rcases l1 with _ | ⟨_, _ | ⟨_, _ | _⟩⟩
      · exact absurd (List.cons.inj hl).1 (no nofun nofun)
      · cases hl; exact here
      · cases hl
      · cases hl
  | @timeout inb l q hn h ih =>
    rcases l1 with _ | ⟨_, _ | ⟨_, l1⟩⟩
    · exact absurd (List.cons.inj hl).1 (no nofun nofun)
    · cases hl; exact here
    · simp only [List.cons_append, List.cons.injEq] at hl
      obtain ⟨rfl, rfl, hl⟩ := hl
      exact more [_, _] (fun _ => rfl) (fun _ => rfl) (ih hl)
  | @ignored inb b l q hn h ih =>
    rcases l1 with _ | ⟨_, _ | ⟨_, _ | ⟨_, l1⟩⟩⟩
    · exact absurd (List.cons.inj hl).1 (no nofun nofun)
    · cases hl; exact here
    · exact absurd (List.cons.inj (List.cons.inj (List.cons.inj hl).2).2).1 (no nofun nofun)
    · simp only [List.cons_append, List.cons.injEq] at hl
      obtain ⟨rfl, rfl, rfl, hl⟩ := hl
      exact more [_, _, _] (fun _ => rfl) (fun _ => rfl) (ih hl)
  | @read inb b l q hn h ih =>
    rcases l1 with _ | ⟨_, _ | ⟨_, _ | ⟨_, l1⟩⟩⟩
    · exact absurd (List.cons.inj hl).1 (no nofun nofun)
    · cases hl; exact here
    · exact absurd (List.cons.inj (List.cons.inj (List.cons.inj hl).2).2).1 (no nofun nofun)
    · simp only [List.cons_append, List.cons.injEq] at hl
      obtain ⟨rfl, rfl, rfl, hl⟩ := hl
      exact more [_, _, _] (fun _ => rfl) (fun _ => rfl) (ih hl)
  | huge => cases l1 <;> cases hl
  | begin => cases l1 <;> cases hl
  | @serving inb m' l x q hm hd _ =>
    cases l1 with
    | nil => exact absurd (List.cons.inj hl).1 (no nofun nofun)
    | cons x l1 =>
      simp only [List.cons_append, List.cons.injEq] at hl
      exact absurd (by rw [hl.2]; simp) (hne (dispatcher_inner hd))
  | @rejected inb m' l hm hd =>
    cases l1 with
    | nil => exact absurd (List.cons.inj hl).1 (no nofun nofun)
    | cons x l1 =>
      simp only [List.cons_append, List.cons.injEq] at hl
      obtain ⟨l1', rfl, e⟩ := split_after hl.2 (hne (dispatcher_inner hd))
      rcases l1' with _ | ⟨_, _ | _⟩
      · exact absurd (List.cons.inj e).1 (no nofun nofun)
      · cases e
      · cases e
  | @served inb m' l l2' q hm hd h ih =>
    have hi := dispatcher_inner hd
    cases l1 with
    | nil => exact absurd (List.cons.inj hl).1 (no nofun nofun)
    | cons x l1 =>
      simp only [List.cons_append, List.cons.injEq] at hl
      obtain ⟨rfl, hl⟩ := hl
      obtain ⟨l1', rfl, e⟩ := split_after hl (hne hi)
      cases l1' with
      | nil => exact absurd (List.cons.inj e).1 (no nofun nofun)
      | cons y l1' =>
        simp only [List.cons_append, List.cons.injEq] at e
        obtain ⟨rfl, e⟩ := e
        obtain ⟨segs, h1, h2, h3⟩ := ih e
        have e1 : ∀ x, served (⟨.reqBegin m', ()⟩ :: (l ++ ⟨.reqEnd, ()⟩ :: x)) = m' :: served x := by
          intro x
          show m' :: served (l ++ ⟨.reqEnd, ()⟩ :: x) = _
          rw [served_inner hi]; rfl
        have e4 : sent (⟨.reqBegin m', ()⟩ :: (l ++ ⟨.reqEnd, ()⟩ :: l1')) = sent l ++ sent l1' := sent_append l (⟨.reqEnd, ()⟩ :: l1')
        refine ⟨(m', l) :: segs, by rw [e1, h1]; rfl, by rw [e4, h2]; rfl, fun i x hx => ?_⟩
        cases i with
        | zero => cases hx; exact ⟨[], l1', rfl, rfl, hd⟩
        | succ i =>
          obtain ⟨a, b, g1, g2, g3⟩ := h3 i x hx
          exact ⟨⟨.reqBegin m', ()⟩ :: (l ++ ⟨.reqEnd, ()⟩ :: a), b, by rw [g1]; simp, by rw [e1, List.length_cons, g2], g3⟩

/-- Splitting a run where what connection `c` does is split. -/
theorem actsOf_split {c : Nat} {tr : List SEv} {a : Act} {r : a.Resp} {x y : List REv} (h : actsOf c tr = x ++ ⟨a, r⟩ :: y) :
    ∃ ta tb, tr = ta ++ .conn c a r :: tb ∧ actsOf c ta = x ∧ actsOf c tb = y := by
  unfold actsOf at h
  obtain ⟨ta, tb, h1, h2, h3⟩ := List.filterMap_eq_append_iff.1 h
  obtain ⟨tc, e, td, h4, h5, h6, h7⟩ := List.filterMap_eq_cons_iff.1 h3
  refine ⟨ta ++ tc, td, ?_, ?_, h7⟩
  · have : e = .conn c a r := by
      cases e with
      | conn c' a' r' =>
        dsimp only at h6
        split at h6
        · next hc => subst hc; cases h6; rfl
        · cases h6
      | _ => cases h6
    rw [h1, h4, this, List.append_assoc]
  · unfold actsOf
    rw [List.filterMap_append, h2, List.filterMap_eq_nil_iff.2 h5, List.append_nil]

/-- **C105**, one message: a message that is taken up and laid down, and for which something was sent, is accepted as one of a request, and this is an exchange. -/
theorem C105_exchange {sv : Server} {clock : Int} {k : Nat} {m : Bytes} {t1 tr : List SEv} {s1 s2 : Sys} (h : Serves sv clock k m t1 s1 tr s2)
    (ha : AllSent (actsOf k tr)) (hs : sent (actsOf k tr) ≠ []) :
    ∃ req c client, Accepted req c client m ∧ FitsBuffer req c client ∧ Exchange sv clock k req c t1 s1 tr s2 := by
  obtain ⟨req, c, client, a1, a2, a3, a4, _⟩ := C103_served h hs
  exact ⟨req, c, client, a1, a4, a2, a4.2, ⟨client, m, ⟨a1, a4.1⟩, h⟩, ha, hs⟩

/-- **C105**: whenever a connection of the mock reads, or is closed, what it has read is a sequence of requests (and the beginning of a message, perhaps), and what it has sent is
the concatenation of the responses of exchanges with these requests, one for each, in order, unless a write has failed. Here `xs` are the requests with their correlation ids
and the bytes sent for them. -/
theorem C105 {sv : Server} {clock : Int} {tr : List SEv} {s : Sys} (h : Sys.Run (Sys.new sv clock) tr s) {c : Nat} {k : ConnG}
    (hk : s.conns[c]? = some k) {l1 l2 : List REv} {e : REv} (he : e.act = .recv ∨ e.act = .close) (hl : actsOf c tr = l1 ++ e :: l2) (ha : AllSent l1) :
    ∃ xs : List (Request × I32 × Bytes), sent l1 = (xs.map (·.2.2)).flatten ∧
      List.Forall₂ (fun m x => ∃ client, Accepted x.1 x.2.1 client m ∧ FitsBuffer x.1 x.2.1 client) (frames (received l1)) xs ∧
      ∀ (i : Nat) (x : Request × I32 × Bytes), xs[i]? = some x → ∃ t1 m s1 te s2 t2, tr = t1 ++ .conn c (.reqBegin m) () :: (te ++ .conn c .reqEnd () :: t2) ∧
        (frames (received l1))[i]? = some m ∧ (served (actsOf c t1)).length = i ∧ Exchange sv clock c x.1 x.2.1 t1 s1 te s2 ∧ sent (actsOf c te) = x.2.2 := by
  obtain ⟨w, w', es, p, x1, x2, _⟩ := h.connection hk
  have hcv := handle_conv x1.own
  rw [x2] at hcv
  obtain ⟨segs, g1, g2, g3⟩ := outer_segments hcv he hl
  have gi := outer_idle hcv he hl
  rw [List.nil_append] at gi
  -- each segment is an exchange
  have key : ∀ (i : Nat) (x : Bytes × List REv), segs[i]? = some x → ∃ req corr client, Accepted req corr client x.1 ∧ FitsBuffer req corr client ∧
      ∃ t1 s1 te s2 t2, tr = t1 ++ .conn c (.reqBegin x.1) () :: (te ++ .conn c .reqEnd () :: t2) ∧ (served (actsOf c t1)).length = i ∧
        Exchange sv clock c req corr t1 s1 te s2 ∧ sent (actsOf c te) = sent x.2 := by
    intro i x hx
    obtain ⟨a, b, h1, h2, h3⟩ := g3 i x hx
    have hl' := hl
    rw [h1, List.append_assoc, List.cons_append, List.append_assoc, List.cons_append] at hl'
    obtain ⟨ta, tb, rfl, e2, e3⟩ := actsOf_split hl'
    obtain ⟨te, td, rfl, e5, e6⟩ := actsOf_split e3
    obtain ⟨s0, r1, r2⟩ := run_split h
    cases r2 with
    | @cons _ s1 _ _ _ hst1 r3 =>
      obtain ⟨s2, r4, r5⟩ := run_split r3
      cases r5 with
      | @cons _ s3 _ _ _ hst2 r6 =>
        have hserve : Serves sv clock c x.1 ta s1 te s2 := by
          refine ⟨⟨s0, r1, hst1⟩, r4, ⟨s3, hst2⟩, fun hm => ?_⟩
          have : (⟨.reqEnd, ()⟩ : REv) ∈ actsOf c te := by
            unfold actsOf
            exact List.mem_filterMap.2 ⟨_, hm, by simp⟩
          rw [e5] at this
          exact dispatcher_inner h3 _ this
        have hall : AllSent (actsOf c te) := by
          rw [e5]
          exact fun bs hb => ha bs (by rw [h1]; simp [hb])
        obtain ⟨req, corr, client, a1, a2, a3⟩ := C105_exchange hserve hall (by rw [e5]; exact done_sent h3 (by rw [← e5]; exact hall))
        exact ⟨req, corr, client, a1, a2, ta, s1, te, s2, td, rfl, by rw [e2, h2], a3, by rw [e5]⟩
  -- collect them
  have collect : ∀ (segs : List (Bytes × List REv)) (n : Nat), (∀ (i : Nat) (x : Bytes × List REv), segs[i]? = some x → ∃ req corr client, Accepted req corr client x.1 ∧ FitsBuffer req corr client ∧
      ∃ t1 s1 te s2 t2, tr = t1 ++ .conn c (.reqBegin x.1) () :: (te ++ .conn c .reqEnd () :: t2) ∧ (served (actsOf c t1)).length = n + i ∧
        Exchange sv clock c req corr t1 s1 te s2 ∧ sent (actsOf c te) = sent x.2) →
      ∃ xs : List (Request × I32 × Bytes), (segs.map fun x => sent x.2).flatten = (xs.map (·.2.2)).flatten ∧
        List.Forall₂ (fun m x => ∃ client, Accepted x.1 x.2.1 client m ∧ FitsBuffer x.1 x.2.1 client) (segs.map (·.1)) xs ∧
        ∀ (i : Nat) (x : Request × I32 × Bytes), xs[i]? = some x → ∃ t1 m s1 te s2 t2, tr = t1 ++ .conn c (.reqBegin m) () :: (te ++ .conn c .reqEnd () :: t2) ∧
          (segs.map (·.1))[i]? = some m ∧ (served (actsOf c t1)).length = n + i ∧ Exchange sv clock c x.1 x.2.1 t1 s1 te s2 ∧ sent (actsOf c te) = x.2.2 := by
    intro segs
    induction segs with
    | nil => exact fun n _ => ⟨[], rfl, .nil, fun i x hx => by cases hx⟩
    | cons y segs ih =>
      intro n hy
      obtain ⟨req, corr, client, b1, b2, t1, s1, te, s2, t2, b3, b4, b5, b6⟩ := hy 0 y rfl
      obtain ⟨xs, c1, c2, c3⟩ := ih (n + 1) fun i x hx => by
        have := hy (i + 1) x hx
        rwa [show n + (i + 1) = n + 1 + i by omega] at this
      refine ⟨(req, corr, sent y.2) :: xs, by simp [c1], .cons ⟨client, b1, b2⟩ c2, fun i x hx => ?_⟩
      cases i with
      | zero => cases hx; exact ⟨t1, y.1, s1, te, s2, t2, b3, rfl, b4, b5, b6⟩
      | succ i =>
        obtain ⟨t1, m, s1, te, s2, t2, d⟩ := c3 i x hx
        rw [show n + 1 + i = n + (i + 1) by omega] at d
        exact ⟨t1, m, s1, te, s2, t2, d⟩
  obtain ⟨xs, c1, c2, c3⟩ := collect segs 0 fun i x hx => by rw [Nat.zero_add]; exact key i x hx
  rw [← gi, g1]
  refine ⟨xs, by rw [g2, c1], c2, fun i x hx => ?_⟩
  have := c3 i x hx
  rwa [Nat.zero_add] at this

/-! ### Example -/

/-- A client sends two Heartbeat requests in one piece: a proper one, and one with a negative length for its empty group id. The mock answers both and reads again. -/
def twoBeats : List Pick := starts 0 ++ opens 0 ++ accepts 0 ++
  [.conn 0, .conn 0, .recv 0 (.data (heartbeatBytes ++ [0, 0, 0, 20] ++ looseBeat)), .conn 0] ++ List.replicate 14 (.conn 0) ++ [.recv 0 .timeout]

set_option maxRecDepth 100000 in
/-- The hypotheses of `C105` (and of `C105_exchange`). -/
theorem C105_example : ∃ tr s k l1, Sys.Run (Sys.new ⟨9092, []⟩ 0) tr s ∧ s.conns[0]? = some k ∧ actsOf 0 tr = l1 ++ [⟨.recv, .timeout⟩] ∧ AllSent l1 ∧
    frames (received l1) = [heartbeatBytes.drop 4, looseBeat] ∧ sent l1 = [0, 0, 0, 6, 0, 0, 0, 7, 0, 0] ++ [0, 0, 0, 6, 0, 0, 0, 7, 0, 0] := by
  refine ⟨_, _, _, (actsOf 0 (eventsOf twoBeats (Sys.new ⟨9092, []⟩ 0))).dropLast, stateAfter_run twoBeats _, rfl, rfl, ?_, by decide +kernel, by decide +kernel⟩
  intro b hb
  have : ((actsOf 0 (eventsOf twoBeats (Sys.new ⟨9092, []⟩ 0))).dropLast).all (fun e => match e with | ⟨.write _, r⟩ => r | _ => true) = true := by decide +kernel
  have := List.all_eq_true.1 this _ hb
  cases this

end KM.Props
