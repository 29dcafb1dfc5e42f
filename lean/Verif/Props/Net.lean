import Verif.Replies
import Verif.NetSim
import Verif.Props.Moment
import Verif.Props.Talk
import Verif.Props.Visible
/-
C106: what a client sees from its end of the connection. The `i`-th response that a client receives comes from an exchange with the `i`-th request that it has sent, which the mock
took up after the client had sent all of it, and whose response it had written before the client received the last bytes. So what the properties of exchanges (C59, C60, C94, ...)
say about requests in the order in which the mock serves them holds for requests in the order in which clients send and receive.
-/
namespace KM.Props
open KM KM.Spec

/-! ### Splitting runs -/

theorem mocks_split {tr : List NEv} {a b : List SEv} {e : SEv} (h : mocks tr = a ++ e :: b) : ∃ u1 u2, tr = u1 ++ .mock e :: u2 ∧ mocks u1 = a ∧ mocks u2 = b := by
  unfold mocks at h
  obtain ⟨ta, tb, h1, h2, h3⟩ := List.filterMap_eq_append_iff.1 h
  obtain ⟨tc, x, td, h4, h5, h6, h7⟩ := List.filterMap_eq_cons_iff.1 h3
  refine ⟨ta ++ tc, td, ?_, ?_, h7⟩
  · have : x = .mock e := by
      cases x with
      | mock y => cases h6; rfl
      | _ => cases h6
    rw [h1, h4, this, List.append_assoc]
  · unfold mocks
    rw [List.filterMap_append, h2, List.filterMap_eq_nil_iff.2 h5, List.append_nil]

theorem own_prefix {α : Type} {p q : Prog α} {l l' : List REv} (h : Own p (l ++ l') q) : ∃ q', Own p l q' ∧ Own q' l' q := by
  generalize e : l ++ l' = x at h
  induction h generalizing l with
  | refl p =>
    obtain ⟨rfl, rfl⟩ := List.append_eq_nil_iff.1 e
    exact ⟨p, .refl _, .refl _⟩
  | act a k r h ih =>
    cases l with
    | nil => exact ⟨_, .refl _, by rw [show l' = _ from e]; exact .act a k r h⟩
    | cons y l =>
      simp only [List.cons_append, List.cons.injEq] at e
      obtain ⟨rfl, e⟩ := e
      obtain ⟨q', h1, h2⟩ := ih e
      exact ⟨q', .act a k r h1, h2⟩
  | unroll h ih =>
    obtain ⟨q', h1, h2⟩ := ih e
    exact ⟨q', .unroll h1, h2⟩

/-- An action may get any response. -/
theorem own_other {α : Type} {p q : Prog α} {a : Act} {r : a.Resp} {l : List REv} (h : Own p (⟨a, r⟩ :: l) q) (r' : a.Resp) : ∃ q', Own p [⟨a, r'⟩] q' := by
  generalize e : (⟨a, r⟩ : REv) :: l = x at h
  induction h with
  | refl => cases e
  | act _ k _ _ _ => cases e; exact ⟨_, .act _ k r' (.refl _)⟩
  | unroll h ih =>
    obtain ⟨q', h'⟩ := ih e
    exact ⟨q', .unroll h'⟩

/-- What a connection does is a conversation, if it exists or not. -/
theorem acts_own {sv : Server} {clock : Int} {tr : List SEv} {s : Sys} (h : Sys.Run (Sys.new sv clock) tr s) (c : Nat) : ∃ q, Own (handle sv) (actsOf c tr) q := by
  cases hk : s.conns[c]? with
  | some k =>
    obtain ⟨w, w', es, p, x1, x2, _⟩ := h.connection hk
    exact ⟨p, by rw [← x2]; exact x1.own⟩
  | none =>
    have : actsOf c tr = [] := by
      cases e : actsOf c tr with
      | nil => rfl
      | cons x l =>
        obtain ⟨a, r⟩ := x
        obtain ⟨ta, tb, rfl, _, _⟩ := actsOf_split (x := []) e
        obtain ⟨s0, _, h2⟩ := run_split h
        cases h2 with
        | cons h3 h4 =>
          obtain ⟨k, f, _, _, h5⟩ := step_conn_acts h3
          obtain ⟨k', h6, _⟩ := h4.project h5 rfl
          rw [hk] at h6; cases h6
    rw [this]
    exact ⟨_, .refl _⟩

/-- The number of a message fixes where it is taken up. -/
theorem same_begin {a a' b b' : List REv} {m m' : Bytes} {u u' : Unit} (h : a ++ ⟨.reqBegin m, u⟩ :: b = a' ++ ⟨.reqBegin m', u'⟩ :: b')
    (hs : (served a).length = (served a').length) : a = a' ∧ m = m' ∧ b = b' := by
  induction a generalizing a' with
  | nil =>
    cases a' with
    | nil => cases h; exact ⟨rfl, rfl, rfl⟩
    | cons x a' => cases h; cases hs
  | cons x a ih =>
    cases a' with
    | nil => cases h; cases hs
    | cons y a' =>
      simp only [List.cons_append, List.cons.injEq] at h
      obtain ⟨rfl, h⟩ := h
      have : (served a).length = (served a').length := by
        rw [served_length, served_length, List.countP_cons, List.countP_cons] at hs
        rw [served_length, served_length]
        omega
      obtain ⟨rfl, rfl, rfl⟩ := ih h this
      exact ⟨rfl, rfl, rfl⟩

/-- The writes among actions. -/
def writes (l : List REv) : Nat := l.countP fun e => match e.act with | .write _ => true | _ => false

theorem writes_silent {l : List REv} (h : ∀ e ∈ l, e.act.socket = false) : writes l = 0 := by
  unfold writes
  rw [List.countP_eq_zero]
  intro e he
  have := h e he
  obtain ⟨a, r⟩ := e
  cases a <;> first | (cases this; done) | nofun

theorem writes_append (a b : List REv) : writes (a ++ b) = writes a + writes b := List.countP_append ..

/-! ### What a client has received -/

/-- What has been received on a connection has been written by it: a message that a client has received is a response that the mock has written. -/
theorem reply_in {sv : Server} {clock : Int} {tr : List NEv} {n : Net} (h : Net.Run (Net.new sv clock) tr n) (c : Nat) (hs : SmallReplies sv (actsOf c (mocks tr)))
    {i : Nat} {r : Bytes} (hr : (frames (got c tr))[i]? = some r) :
    ∃ l1 m pre corr payload l2, actsOf c (mocks tr) = l1 ++ ⟨.reqBegin m, ()⟩ :: (pre ++ replyWrites corr payload ++ l2) ∧ (served l1).length = i ∧
      (∀ e ∈ pre, e.act.socket = false) ∧ payload.length + 4 < 2 ^ 32 ∧ r = encodeInt32 corr ++ payload ∧ AllSent (l1 ++ ⟨.reqBegin m, ()⟩ :: (pre ++ replyWrites corr payload)) := by
  obtain ⟨q, hq⟩ := acts_own h.sys c
  have hf := h.flow c (l := []) (g := []) (.whole nofun)
  rw [List.nil_append, List.nil_append] at hf
  generalize hacts : actsOf c (mocks tr) = l at hf hq hs ⊢
  generalize hg : got c tr ++ (n.links c).down = f, (n.links c).broken = br at hf
  cases hf with
  | whole ha =>
    obtain ⟨l1, m, pre, corr, payload, l2, h1, h2, h3, h4, h5, _, h6, h7⟩ := replied (handle_conv hq) ha hs (s := got c tr) ⟨_, hg⟩ hr
    refine ⟨l1, m, pre, corr, payload, l2, h1, h2, h3, h5, h6, ?_⟩
    rw [h1] at ha
    refine allSent_left (l := l2) ?_
    simpa using ha
  | @broken a t b x y hl ha hb hy =>
    subst hl
    have hq1 : ∃ q', Own (handle sv) (a ++ [⟨.write b, true⟩]) q' := by
      obtain ⟨q', h1, h2⟩ := own_prefix hq
      obtain ⟨q'', h3⟩ := own_other h2 true
      exact ⟨q'', h1.trans h3⟩
    obtain ⟨q', hq'⟩ := hq1
    have ha' : AllSent (a ++ [⟨.write b, true⟩]) := allSent_snoc ha nofun
    have hs' : SmallReplies sv (a ++ [⟨.write b, true⟩]) := by
      intro l1 m l2 l3 corr payload e h2
      rcases List.eq_nil_or_concat l3 with rfl | ⟨l3', z, rfl⟩
      · rcases List.eq_nil_or_concat l2 with rfl | ⟨l2', z, rfl⟩
        · have := (List.append_inj' (s₁ := a) (t₁ := [⟨.write b, true⟩]) (s₂ := l1) (t₂ := [⟨.reqBegin m, ()⟩]) (by simpa using e) rfl).2
          cases this
        · have := (List.append_inj' (s₁ := a) (t₁ := [⟨.write b, true⟩]) (s₂ := l1 ++ ⟨.reqBegin m, ()⟩ :: l2') (t₂ := [z]) (by simpa using e) rfl).2
          cases this
          exact absurd (h2 ⟨.write b, true⟩ (by simp)) nofun
      · have := (List.append_inj' (s₁ := a) (t₁ := [⟨.write b, true⟩]) (s₂ := l1 ++ ⟨.reqBegin m, ()⟩ :: (l2 ++ l3')) (t₂ := [z]) (by simpa using e) rfl).1
        exact hs l1 m l2 (l3' ++ ⟨.write b, false⟩ :: t) corr payload (by rw [this]; simp) h2
    have hst : sent (a ++ [⟨.write b, true⟩]) = sent a ++ b := by rw [sent_append]; simp [sent]
    have hp : got c tr <+: sent (a ++ [⟨.write b, true⟩]) := by
      rw [hst, hb]
      exact ⟨(n.links c).down ++ y, by rw [← List.append_assoc, hg]; simp⟩
    obtain ⟨l1, m, pre, corr, payload, l2, h1, h2, h3, h4, h5, _, h6, h7⟩ := replied (handle_conv hq') ha' hs' hp hr
    -- the last write is not the last of the response
    rcases List.eq_nil_or_concat l2 with rfl | ⟨l2', z, rfl⟩
    · exfalso
      rw [List.append_nil] at h1
      rw [← h1, hst, hb] at h7
      have e1 := h7.length_le
      have e2 := congrArg List.length hg
      have e3 := List.length_pos_of_ne_nil hy
      simp only [List.length_append] at e1 e2
      omega
    · have e := List.append_inj' (s₁ := a) (t₁ := [⟨.write b, true⟩]) (s₂ := l1 ++ ⟨.reqBegin m, ()⟩ :: (pre ++ replyWrites corr payload ++ l2')) (t₂ := [z]) (by simpa using h1) rfl
      refine ⟨l1, m, pre, corr, payload, l2' ++ ⟨.write b, false⟩ :: t, by rw [e.1]; simp, h2, h3, h5, h6, ?_⟩
      rw [e.1] at ha
      refine allSent_left (l := l2') ?_
      simpa using ha

/-- A run of the mock in which connection `c` has done `l1`, takes up the message `m` and does `l2`. -/
structure Taken (sv : Server) (clock : Int) (c : Nat) (m : Bytes) (l1 l2 : List REv) (t1 : List SEv) (s1 : Sys) (te : List SEv) (s2 : Sys) : Prop where
  before : ∃ s0, Sys.Run (Sys.new sv clock) t1 s0 ∧ Sys.Step s0 (.conn c (.reqBegin m) ()) s1
  run : Sys.Run s1 te s2
  acts1 : actsOf c t1 = l1
  acts2 : actsOf c te = l2

/-- If the connection has written a response, this is an exchange. -/
theorem Taken.serves {sv : Server} {clock : Int} {c : Nat} {m : Bytes} {l1 pre : List REv} {corr : I32} {payload : Bytes} {t1 te : List SEv} {s1 s2 : Sys}
    (h : Taken sv clock c m l1 (pre ++ replyWrites corr payload) t1 s1 te s2) (e3 : ∀ e ∈ pre, e.act.socket = false) (ha : AllSent l1) : Serves sv clock c m t1 s1 te s2 := by
  obtain ⟨⟨s0, hrun0, hstep⟩, hrun, f1, f2⟩ := h
  have hrun2 : Sys.Run (Sys.new sv clock) (t1 ++ .conn c (.reqBegin m) () :: te) s2 := hrun0.append (.cons hstep hrun)
  have acts2 : actsOf c (t1 ++ .conn c (.reqBegin m) () :: te) = l1 ++ ⟨.reqBegin m, ()⟩ :: (pre ++ replyWrites corr payload) := by
    rw [actsOf_append, show (SEv.conn c (.reqBegin m) () :: te) = [.conn c (.reqBegin m) ()] ++ te from rfl, actsOf_append, actsOf_self, f1, f2]
    rfl
  refine ⟨⟨s0, hrun0, hstep⟩, hrun, ?_, ?_⟩
  · obtain ⟨k, f, _, _, hk1⟩ := step_conn_acts hstep
    obtain ⟨k', hk2, _⟩ := hrun.project hk1 rfl
    obtain ⟨w, w', es, p, x1, x2, x3⟩ := hrun2.connection hk2
    have x1' := x1.own
    rw [x2, acts2] at x1'
    obtain ⟨g, rfl⟩ := ends_next (handle_conv x1') rfl (by
      intro b hb
      simp only [List.mem_append, List.mem_cons] at hb
      rcases hb with hb | hb | hb | hb
      · exact ha b hb
      · cases hb
      · cases e3 _ hb
      · simp [replyWrites] at hb) e3
    rcases x3 with x3 | ⟨_, x3⟩
    · exact ⟨_, .conn (w := s2.view k'.ctx) hk2 x3 rfl⟩
    · cases x3
  · intro hm
    have : (⟨.reqEnd, ()⟩ : REv) ∈ actsOf c te := by
      unfold actsOf
      exact List.mem_filterMap.2 ⟨_, hm, by simp⟩
    rw [f2] at this
    rcases List.mem_append.1 this with x | x
    · cases e3 _ x
    · simp [replyWrites] at x

/-- The trace of `C106`: whatever the states in between, the client's `i`-th response comes from one exchange. -/
theorem reply_exchange {sv : Server} {clock : Int} {ta tb : List NEv} {na n : Net} (h1 : Net.Run (Net.new sv clock) ta na) (h2 : Net.Run na tb n) (c : Nat)
    (hs : SmallReplies sv (actsOf c (mocks (ta ++ tb)))) {i : Nat} {r : Bytes} (hlate : (frames (asked c ta)).length ≤ i) (hr : (frames (got c (ta ++ tb)))[i]? = some r) :
    ∃ u1 m u2 payload u3 req corr client pre cw l1, tb = (u1 ++ [.mock (.conn c (.reqBegin m) ())]) ++ ((u2 ++ [.mock (.conn c (.write payload) true)]) ++ u3) ∧
      (frames (asked c (ta ++ u1)))[i]? = some m ∧ Accepted req corr client m ∧ FitsBuffer req corr client ∧
      (frames (got c (ta ++ u1 ++ .mock (.conn c (.reqBegin m) ()) :: (u2 ++ [.mock (.conn c (.write payload) true)])))).length ≤ i ∧
      (∀ e ∈ pre, e.act.socket = false) ∧ (served l1).length = i ∧ Framed (sent (pre ++ replyWrites cw payload)) [r] ∧
      actsOf c (mocks (ta ++ u1)) = l1 ∧ actsOf c (mocks (u2 ++ [.mock (.conn c (.write payload) true)])) = pre ++ replyWrites cw payload ∧
      ∀ t1 s1 te s2, Taken sv clock c m l1 (pre ++ replyWrites cw payload) t1 s1 te s2 → Exchange sv clock c req corr t1 s1 te s2 := by
  have h := h1.append h2
  obtain ⟨l1, m, pre, corr, payload, l2, e1, e2, e3, e4, e5, e6⟩ := reply_in h c hs hr
  obtain ⟨tc, td, f1, f2, f3⟩ := actsOf_split e1
  have e3' : actsOf c td = (pre ++ [⟨.write (responseSize payload), true⟩, ⟨.write (encodeInt32 corr), true⟩]) ++ ⟨.write payload, true⟩ :: l2 := by
    rw [f3]; simp [replyWrites]
  obtain ⟨te, tf, f4, f5, f6⟩ := actsOf_split e3'
  obtain ⟨w1, v, g0, g1, g2⟩ := mocks_split f1
  rw [f4] at g2
  obtain ⟨u2, u3, rfl, g3, g4⟩ := mocks_split g2
  -- the request was complete
  have complete : (frames (asked c w1))[i]? = some m := by
    obtain ⟨q, hq⟩ := acts_own h.sys c
    rw [e1] at hq
    have c1 := begin_complete (handle_conv hq) rfl
    obtain ⟨q', hq', _⟩ := own_prefix hq
    have c2 := received_readIn (handle_conv hq') (fun hm => h.never_stopping c (by rw [e1]; simp [hm]))
    rw [g0] at h
    obtain ⟨n0, r5, _⟩ := h.split
    have c3 := r5.asked c
    rw [g1, f2] at c3
    have c4 : KM.asked c w1 = readIn l1 ++ (n0.links c).up := by simpa [Net.new] using c3
    obtain ⟨z, hz⟩ := c2
    obtain ⟨y, hy⟩ := c1
    obtain ⟨x, hx⟩ := frames_append (received l1) (z ++ (n0.links c).up)
    rw [← List.append_assoc, hz, ← c4] at hx
    rw [List.nil_append] at hy
    rw [← hx, ← hy, List.append_assoc, List.append_assoc, List.getElem?_append_right (by omega), e2, Nat.sub_self]
    rfl
  -- so it was taken up later
  obtain ⟨u1, rfl, rfl⟩ : ∃ u1, w1 = ta ++ u1 ∧ tb = u1 ++ .mock (.conn c (.reqBegin m) ()) :: (u2 ++ .mock (.conn c (.write payload) true) :: u3) := by
    rcases List.append_eq_append_iff.1 g0 with ⟨x, x1, x2⟩ | ⟨x, x1, x2⟩
    · exact ⟨x, x1, x2⟩
    · exfalso
      have y1 := (frames_append (asked c w1) (asked c x)).length_le
      rw [← asked_append, ← x1] at y1
      have y2 := (List.getElem?_eq_some_iff.1 complete).1
      omega
  have k2 : mocks (u2 ++ [.mock (.conn c (.write payload) true)]) = te ++ [.conn c (.write payload) true] := by rw [mocks_append, g3]; rfl
  have a2 : actsOf c (te ++ [.conn c (.write payload) true]) = pre ++ replyWrites corr payload := by rw [actsOf_append, f5, actsOf_self]; simp [replyWrites]
  have eqn : u1 ++ .mock (.conn c (.reqBegin m) ()) :: (u2 ++ .mock (.conn c (.write payload) true) :: u3) =
      (u1 ++ [.mock (.conn c (.reqBegin m) ())]) ++ ((u2 ++ [.mock (.conn c (.write payload) true)]) ++ u3) := by simp
  rw [eqn] at h2
  obtain ⟨n1, r1, r2⟩ := h2.split
  obtain ⟨n2, r3, r4⟩ := r2.split
  obtain ⟨n0, r5, r6⟩ := r1.split
  have ha1 : AllSent l1 := fun b hb => e6 b (by simp [hb])
  have hsent : sent (pre ++ replyWrites corr payload) = responseSize payload ++ r := by rw [sent_silent e3, sent_replyWrites, e5]
  have hsz : (responseSize payload).length = 4 := by simp [responseSize, encodeInt32]
  have hall : AllSent (pre ++ replyWrites corr payload) := fun b hb => e6 b (by simp only [List.mem_append, List.mem_cons] at hb ⊢; tauto)
  have hne : sent (pre ++ replyWrites corr payload) ≠ [] := by
    rw [hsent]
    intro e
    have := congrArg List.length e
    simp [hsz] at this
  have here : Taken sv clock c m l1 (pre ++ replyWrites corr payload) (mocks (ta ++ u1)) n1.sys (mocks (u2 ++ [.mock (.conn c (.write payload) true)])) n2.sys := by
    refine ⟨⟨n0.sys, (h1.append r5).sys, ?_⟩, r3.sys, by rw [g1, f2], by rw [k2, a2]⟩
    have r6' := r6.sys
    cases r6' with
    | cons x1 x2 => cases x2; exact x1
  obtain ⟨req, corr', client, b1, b2, b3⟩ := C105_exchange (here.serves e3 ha1) (by rw [here.acts2]; exact hall) (by rw [here.acts2]; exact hne)
  refine ⟨u1, m, u2, payload, u3, req, corr', client, pre, corr, l1, eqn, complete, b1, b2, ?_, e3, e2, ?_, here.acts1, here.acts2, ?_⟩
  rotate_left
  · rw [hsent]
    have hb : be (responseSize payload) = r.length := by rw [be_responseSize e4, e5]; simp [encodeInt32]
    have := Framed.cons hsz hb Framed.nil
    rwa [List.append_nil] at this
  · intro t1 s1 te s2 ht
    exact ⟨b3.wellFormed, b3.body, ⟨client, m, ⟨b1, b2.1⟩, ht.serves e3 ha1⟩, by rw [ht.acts2]; exact hall, by rw [ht.acts2]; exact hne⟩
  · -- the response was not there before
    apply Classical.byContradiction
    intro hc
    have hlt : i < (frames (got c (ta ++ u1 ++ .mock (.conn c (.reqBegin m) ()) :: u2))).length := by
      have : got c (ta ++ u1 ++ .mock (.conn c (.reqBegin m) ()) :: (u2 ++ [.mock (.conn c (.write payload) true)])) = got c (ta ++ u1 ++ .mock (.conn c (.reqBegin m) ()) :: u2) := by
        rw [show ta ++ u1 ++ .mock (.conn c (.reqBegin m) ()) :: (u2 ++ [.mock (.conn c (.write payload) true)]) =
          (ta ++ u1 ++ .mock (.conn c (.reqBegin m) ()) :: u2) ++ [.mock (.conn c (.write payload) true)] by simp, got_append]
        simp [got]
      rw [this] at hc
      omega
    obtain ⟨n3, r7, _⟩ := r3.split
    have hv := (h1.append r1).append r7
    rw [show ta ++ (u1 ++ [.mock (.conn c (.reqBegin m) ())]) ++ u2 = ta ++ u1 ++ .mock (.conn c (.reqBegin m) ()) :: u2 by simp] at hv
    have av : actsOf c (mocks (ta ++ u1 ++ .mock (.conn c (.reqBegin m) ()) :: u2)) =
        l1 ++ ⟨.reqBegin m, ()⟩ :: (pre ++ [⟨.write (responseSize payload), true⟩, ⟨.write (encodeInt32 corr), true⟩]) := by
      rw [show ta ++ u1 ++ .mock (.conn c (.reqBegin m) ()) :: u2 = ((ta ++ u1) ++ [.mock (.conn c (.reqBegin m) ())]) ++ u2 by simp, mocks_append, g3, mocks_append, g1, actsOf_append, f5,
        actsOf_append, f2, show mocks [.mock (.conn c (.reqBegin m) ())] = [.conn c (.reqBegin m) ()] from rfl, actsOf_self]
      simp
    have sv' : SmallReplies sv (actsOf c (mocks (ta ++ u1 ++ .mock (.conn c (.reqBegin m) ()) :: u2))) := by
      rw [av]
      rw [e1] at hs
      refine SmallReplies.left (l := ⟨.write payload, true⟩ :: l2) ?_
      simpa [replyWrites] using hs
    obtain ⟨l1', m', pre', corr', payload', l2', k1, k2, _⟩ := reply_in hv c sv' (List.getElem?_eq_getElem hlt)
    rw [av] at k1
    obtain ⟨_, _, k3⟩ := same_begin k1 (by rw [e2, k2])
    have := congrArg writes k3
    rw [writes_append, writes_append, writes_append, writes_silent e3] at this
    have x1 : writes [⟨.write (responseSize payload), true⟩, ⟨.write (encodeInt32 corr), true⟩] = 2 := rfl
    have x2 : writes (replyWrites corr' payload') = 3 := rfl
    omega

/-- **C106**, later requests: as `C106`, from a state on in which the client has not sent all of its `i`-th message. -/
theorem C106_after {sv : Server} {clock : Int} {ta tb : List NEv} {na n : Net} (h1 : Net.Run (Net.new sv clock) ta na) (h2 : Net.Run na tb n) (c : Nat)
    (hs : SmallReplies sv (actsOf c (mocks (ta ++ tb)))) {i : Nat} {r : Bytes} (hlate : (frames (asked c ta)).length ≤ i) (hr : (frames (got c (ta ++ tb)))[i]? = some r) :
    ∃ u1 m u2 payload u3 n1 n2 req corr client, tb = (u1 ++ [.mock (.conn c (.reqBegin m) ())]) ++ ((u2 ++ [.mock (.conn c (.write payload) true)]) ++ u3) ∧
      Net.Run na (u1 ++ [.mock (.conn c (.reqBegin m) ())]) n1 ∧ Net.Run n1 (u2 ++ [.mock (.conn c (.write payload) true)]) n2 ∧ Net.Run n2 u3 n ∧
      (frames (asked c (ta ++ u1)))[i]? = some m ∧ Accepted req corr client m ∧ FitsBuffer req corr client ∧
      Exchange sv clock c req corr (mocks (ta ++ u1)) n1.sys (mocks (u2 ++ [.mock (.conn c (.write payload) true)])) n2.sys ∧
      Framed (sent (actsOf c (mocks (u2 ++ [.mock (.conn c (.write payload) true)])))) [r] ∧
      (frames (got c (ta ++ u1 ++ .mock (.conn c (.reqBegin m) ()) :: (u2 ++ [.mock (.conn c (.write payload) true)])))).length ≤ i := by
  obtain ⟨u1, m, u2, payload, u3, req, corr, client, pre, cw, l1, e1, e2, e3, e4, e5, e6, e7, e8, e9, e10, e11⟩ := reply_exchange h1 h2 c hs hlate hr
  subst e1
  obtain ⟨n1, r1, r2⟩ := h2.split
  obtain ⟨n2, r3, r4⟩ := r2.split
  obtain ⟨n0, r5, r6⟩ := r1.split
  refine ⟨u1, m, u2, payload, u3, n1, n2, req, corr, client, rfl, r1, r3, r4, e2, e3, e4, e11 _ _ _ _ ⟨⟨n0.sys, (h1.append r5).sys, ?_⟩, r3.sys, e9, e10⟩, by rw [e10]; exact e8, e5⟩
  have r6' := r6.sys
  cases r6' with
  | cons x1 x2 => cases x2; exact x1

/-- **C106**: the `i`-th message that a client receives on connection `c` is a response of the mock, in an exchange with the request that the `i`-th message of the client is. The mock took the
request up when the client had sent all of it, and the client received the response after it was written. (As long as no response has 4 GiB, C13.) -/
theorem C106 {sv : Server} {clock : Int} {tr : List NEv} {n : Net} (h : Net.Run (Net.new sv clock) tr n) (c : Nat) (hs : SmallReplies sv (actsOf c (mocks tr)))
    {i : Nat} {r : Bytes} (hr : (frames (got c tr))[i]? = some r) :
    ∃ u1 m u2 payload u3 n1 n2 req corr client, tr = (u1 ++ [.mock (.conn c (.reqBegin m) ())]) ++ ((u2 ++ [.mock (.conn c (.write payload) true)]) ++ u3) ∧
      Net.Run (Net.new sv clock) (u1 ++ [.mock (.conn c (.reqBegin m) ())]) n1 ∧ Net.Run n1 (u2 ++ [.mock (.conn c (.write payload) true)]) n2 ∧ Net.Run n2 u3 n ∧
      (frames (asked c u1))[i]? = some m ∧ Accepted req corr client m ∧ FitsBuffer req corr client ∧
      Exchange sv clock c req corr (mocks u1) n1.sys (mocks (u2 ++ [.mock (.conn c (.write payload) true)])) n2.sys ∧
      Framed (sent (actsOf c (mocks (u2 ++ [.mock (.conn c (.write payload) true)])))) [r] ∧
      (frames (got c (u1 ++ .mock (.conn c (.reqBegin m) ()) :: (u2 ++ [.mock (.conn c (.write payload) true)])))).length ≤ i := by
  exact C106_after (.nil _) h c hs (Nat.zero_le _) hr

/-- **C106**, order: when one client has received a response before another one (or the same) has sent all of a request, the first exchange was over before the second began. -/
theorem C106_order {sv : Server} {clock : Int} {ta tb : List NEv} {na n : Net} (h1 : Net.Run (Net.new sv clock) ta na) (h2 : Net.Run na tb n) (c d : Nat)
    (hs : SmallReplies sv (actsOf c (mocks ta))) (hs' : SmallReplies sv (actsOf d (mocks (ta ++ tb)))) {i j : Nat} {r r' : Bytes} (hr : (frames (got c ta))[i]? = some r)
    (hlate : (frames (asked d ta)).length ≤ j) (hr' : (frames (got d (ta ++ tb)))[j]? = some r') :
    ∃ m t1 s1 te s2 tm m' t1' s1' te' s2' req corr client req' corr' client', (frames (asked c ta))[i]? = some m ∧ (frames (asked d (ta ++ tb)))[j]? = some m' ∧
      Accepted req corr client m ∧ Exchange sv clock c req corr t1 s1 te s2 ∧ Framed (sent (actsOf c te)) [r] ∧ Sys.Run s2 tm s1' ∧
      Accepted req' corr' client' m' ∧ Exchange sv clock d req' corr' t1' s1' te' s2' ∧ Framed (sent (actsOf d te')) [r'] := by
  obtain ⟨u1, m, u2, payload, u3, n1, n2, req, corr, client, e1, e2, e3, e4, e5, e6, e7, e8, e9, _⟩ := C106 h1 c hs hr
  obtain ⟨u1', m', u2', payload', u3', n1', n2', req', corr', client', f1, f2, f3, f4, f5, f6, f7, f8, f9, _⟩ := C106_after h1 h2 d hs' hlate hr'
  have mono : ∀ {a b : List NEv} {c i : Nat} {m : Bytes}, (frames (asked c a))[i]? = some m → (frames (asked c (a ++ b)))[i]? = some m := by
    intro a b c i m h
    obtain ⟨x, hx⟩ := frames_append (asked c a) (asked c b)
    rw [asked_append, ← hx, List.getElem?_append_left (List.getElem?_eq_some_iff.1 h).1, h]
  refine ⟨m, _, n1.sys, _, n2.sys, _, m', _, n1'.sys, _, n2'.sys, req, corr, client, req', corr', client', ?_, ?_, e6, e8, e9, (e4.append f2).sys, f6, f8, f9⟩
  · rw [e1, List.append_assoc]
    exact mono e5
  · rw [f1, List.append_assoc, ← List.append_assoc]
    exact mono f5

/-- **C106**, posts: when a call of `SimplePost` or `ExtendedPost` has returned before a client has sent all of a Fetch request (one partition per topic) from an offset up to that of
the record, the response that the client receives has the record at its place. -/
theorem C106_posts {sv : Server} {clock : Int} {ta : List NEv} {na : Net} (h1 : Net.Run (Net.new sv clock) ta na)
    {sa : Sys} {a : Nat} {call : PostCall} {tc : List SEv} (hcall : CallRun sa a call.call tc na.sys) :
    ∃ (pos : Nat) (rec : Record), call.Matches sa.clock na.sys.clock rec ∧ ((sa.view 0).log call.topic (BitVec.ofInt 32 call.partition)).length ≤ pos ∧
      ∀ (tb : List NEv) (n : Net) (c j : Nat) (r m : Bytes) (q : FetchRequest) (corr : I32) (client : Option Bytes), Net.Run na tb n → SmallReplies sv (actsOf c (mocks (ta ++ tb))) →
        (frames (asked c ta)).length ≤ j → (frames (asked c (ta ++ tb)))[j]? = some m → Accepted (.fetch q) corr client m → FitsBuffer (.fetch q) corr client →
        (∀ t ∈ q.topics, ∃ p, t.partitions = [p]) → (frames (got c (ta ++ tb)))[j]? = some r → r.length + 4 < 2 ^ 31 →
        (∀ t p, ∀ x ∈ (n.sys.view 0).log t p, wireSize x < 2 ^ 31) →
        ∃ b x, Framed b [r] ∧ Client.response Client.fetch b = some ((corr, 0, x), []) ∧
          List.Forall₂ (fun (qt : FetchTopic) (rt : Bytes × List Client.FetchedPartition) => rt.1 = qt.topic ∧
            List.Forall₂ (fun (par : FetchPartition) (fp : Client.FetchedPartition) => fp.partition = par.partition ∧
              (qt.topic = call.topic → par.partition = BitVec.ofInt 32 call.partition → 0 ≤ par.fetchOffset.toInt → par.fetchOffset.toInt ≤ pos →
                ∃ m, fp.messages[pos - par.fetchOffset.toInt.toNat]? = some m ∧ m.offset = BitVec.ofNat 64 pos ∧ m.timestamp = rec.timestamp ∧
                  m.key = call.key ∧ m.value = call.value))
              qt.partitions rt.2) q.topics x := by
  obtain ⟨pos, rec, p1, p2, _, p3⟩ := C60_posts_partial hcall
  refine ⟨pos, rec, p1, p2, ?_⟩
  intro tb n c j r m q corr client h2 hs hlate hm hacc hfit single hr hlen hroom
  obtain ⟨u1, m', u2, payload, u3, n1, n2, req, corr', client', e1, e2, e3, e4, e5, e6, e7, e8, e9, _⟩ := C106_after h1 h2 c hs hlate hr
  have : m' = m := by
    obtain ⟨x, hx⟩ := frames_append (asked c (ta ++ u1)) (asked c ([.mock (.conn c (.reqBegin m') ())] ++ ((u2 ++ [.mock (.conn c (.write payload) true)]) ++ u3)))
    rw [e1, List.append_assoc, ← List.append_assoc, asked_append, ← hx, List.getElem?_append_left (List.getElem?_eq_some_iff.1 e5).1, e5] at hm
    exact Option.some.inj hm
  subst this
  obtain ⟨rfl, rfl, _⟩ := C103_unambiguous (e := []) (e' := []) hacc hfit e6 e7 rfl
  have hsz : (sent (actsOf c (mocks (u2 ++ [.mock (.conn c (.write payload) true)])))).length = r.length + 4 := by
    generalize sent (actsOf c (mocks (u2 ++ [.mock (.conn c (.write payload) true)]))) = b at e9
    cases e9 with
    | cons x1 x2 x3 => cases x3; simp [x1]; omega
  have hkeep := (C46_kept (e4.sys)).1
  obtain ⟨x, x1, x2⟩ := p3 e2.sys e8 single (fun t p y hy => hroom t p y (by rw [hkeep]; exact List.mem_append_left _ hy)) (by rw [hsz]; exact hlen)
  exact ⟨_, x, e9, x1, x2⟩

/-! ### Examples -/

def isEnd : REv → Bool
  | ⟨.reqEnd, _⟩ => true
  | _ => false

/-- Every request taken up has been answered. -/
def closedOff : List REv → Bool
  | [] => true
  | ⟨.reqBegin _, _⟩ :: l => l.any isEnd && closedOff l
  | _ :: l => closedOff l

theorem closedOff_ends {l l1 r : List REv} {m : Bytes} (h : closedOff l = true) (e : l = l1 ++ ⟨.reqBegin m, ()⟩ :: r) : (⟨.reqEnd, ()⟩ : REv) ∈ r := by
  induction l1 generalizing l with
  | nil =>
    subst e
    simp only [List.nil_append, closedOff, Bool.and_eq_true, List.any_eq_true] at h
    obtain ⟨⟨x, hx, h1⟩, _⟩ := h
    unfold isEnd at h1
    split at h1
    · exact hx
    · cases h1
  | cons y l1 ih =>
    subst e
    refine ih (l := l1 ++ ⟨.reqBegin m, ()⟩ :: r) ?_ rfl
    simp only [List.cons_append] at h
    unfold closedOff at h
    split at h
    · next e => cases e
    · next e => cases e; simp only [Bool.and_eq_true] at h; exact h.2
    · next e => cases e; exact h

theorem smallReplies_check {sv : Server} {clock : Int} {tr : List NEv} {n : Net} (h : Net.Run (Net.new sv clock) tr n) (c : Nat)
    (hc : ((actsOf c (mocks tr)).all (fun e => !REv.failedWrite e) && (actsOf c (mocks tr)).all (fun e => !REv.bigWrite e) && closedOff (actsOf c (mocks tr))) = true) :
    SmallReplies sv (actsOf c (mocks tr)) := by
  simp only [Bool.and_eq_true] at hc
  obtain ⟨q, hq⟩ := acts_own h.sys c
  exact smallReplies_of (handle_conv hq) (allSent_of hc.1.1) (small_of hc.1.2) fun _ _ _ => closedOff_ends hc.2

def frame (req : Request) (c : I32) : Bytes := Spec.int32 (BitVec.ofNat 32 (req.message c (some [99])).length) ++ req.message c (some [99])

/-- The mock starts and accepts two connections; a client has sent a part of a Fetch request. -/
def partSent : List NPick := (starts 0 ++ opens 0 ++ accepts 0 ++ accepts 0).map .mock ++ [.send 0 ((frame askFetch 7).take 9)]

def beforePost : Net := netAfter partSent (Net.new ⟨9092, []⟩ 0)

/-- Caller 1 posts a record. -/
def postOne : Call := .simplePost [116] 0 none (some [1, 2])

def notConn : SEv → Bool
  | .conn .. => false
  | _ => true

/-- What is done by others than connections leaves the connections alone. -/
theorem net_of_run {s s' : Sys} {tr : List SEv} (h : Sys.Run s tr s') (L : Nat → Link) (hn : tr.all notConn = true) : Net.Run ⟨s, L⟩ (tr.map .mock) ⟨s', L⟩ := by
  induction h with
  | nil => exact .nil _
  | @cons s s1 s2 e es h _ ih =>
    simp only [List.all_cons, Bool.and_eq_true] at hn
    refine .cons (.mock h ?_) (ih hn.2)
    cases e with
    | conn c a r => cases hn.1
    | _ => rfl

def postingOne : Sys := stateAfter (caller 1 postOne 4) (beforePost.sys.setApi 1 postOne.entry)
def afterPost : Net := ⟨postingOne, beforePost.links⟩
def postEvents : List SEv := .life (.api 1 postOne) :: eventsOf (caller 1 postOne 4) (beforePost.sys.setApi 1 postOne.entry)
def untilPost : List NEv := netEvents partSent (Net.new ⟨9092, []⟩ 0) ++ postEvents.map .mock

/-- The mock reads the part, the client sends the rest, the mock reads it with a part of the next message and answers; the client receives the response in two pieces. -/
def fetched : List NPick :=
  [.mock (.conn 0), .mock (.conn 0), .mock (.recv 0 (.data ((frame askFetch 7).take 9))), .mock (.conn 0), .send 0 ((frame askFetch 7).drop 9 ++ (frame askFetch 8).take 3), .mock (.conn 0),
    .mock (.conn 0), .mock (.recv 0 (.data ((frame askFetch 7).drop 9 ++ (frame askFetch 8).take 3)))] ++ List.replicate 15 (.mock (.conn 0)) ++ [.receive 0 30, .receive 0 1000]

def afterFetch : Net := netAfter fetched afterPost

/-- Then the client of the other connection sends a request, which is answered. -/
def askedToo : List NPick :=
  [.send 1 (frame askOffset 9), .mock (.conn 1), .mock (.conn 1), .mock (.recv 1 (.data (frame askOffset 9)))] ++ List.replicate 13 (.mock (.conn 1)) ++ [.receive 1 1000]

theorem untilPost_run : Net.Run (Net.new ⟨9092, []⟩ 0) untilPost afterPost ∧ CallRun beforePost.sys 1 postOne (eventsOf (caller 1 postOne 4) (beforePost.sys.setApi 1 postOne.entry)) afterPost.sys := by
  have h1 : beforePost.sys.api 1 = .idle := rfl
  have h2 : CallRun beforePost.sys 1 postOne (eventsOf (caller 1 postOne 4) (beforePost.sys.setApi 1 postOne.entry)) afterPost.sys := callRun_of_play 1 4 postOne _ rfl h1 rfl rfl
  obtain ⟨_, ⟨s1, h3, h4⟩, _⟩ := id h2
  refine ⟨(netAfter_run _ _).append (net_of_run (s := beforePost.sys) (s' := postingOne) (L := beforePost.links) (.cons (s1 := s1) h3 h4) (by decide +kernel)), h2⟩


set_option maxRecDepth 100000 in
set_option synthInstance.maxSize 1000 in
/-- The hypotheses of `C106_posts` (and of `C106_after`): a call has posted a record, while a client had sent a part of its Fetch request; the client has received the response. -/
example : ∃ (tb : List NEv) (n : Net) (m r : Bytes), Net.Run (Net.new ⟨9092, []⟩ 0) untilPost afterPost ∧ Net.Run afterPost tb n ∧
    CallRun beforePost.sys 1 (PostCall.call ⟨[116], 0, none, some [1, 2], none⟩) (eventsOf (caller 1 postOne 4) (beforePost.sys.setApi 1 postOne.entry)) afterPost.sys ∧
    SmallReplies ⟨9092, []⟩ (actsOf 0 (mocks (untilPost ++ tb))) ∧ (frames (asked 0 untilPost)).length ≤ 0 ∧ (frames (asked 0 (untilPost ++ tb)))[0]? = some m ∧
    Accepted askFetch 7 (some [99]) m ∧ FitsBuffer askFetch 7 (some [99]) ∧ (frames (got 0 (untilPost ++ tb)))[0]? = some r ∧ r.length + 4 < 2 ^ 31 ∧ asked 0 untilPost ≠ [] ∧
    ((Client.response Client.fetch (got 0 (untilPost ++ tb))).map fun x => x.1.2.2.map fun t => t.2.map fun p => (p.partition, p.highWatermark, p.messages.map (·.value))) =
      some [[(0, 1, [some [1, 2]])]] := by
  obtain ⟨h1, h2⟩ := untilPost_run
  have h3 : Net.Run afterPost (netEvents fetched afterPost) afterFetch := netAfter_run _ _
  refine ⟨netEvents fetched afterPost, afterFetch, askFetch.message 7 (some [99]), (got 0 (untilPost ++ netEvents fetched afterPost)).drop 4, h1, h3, h2,
    smallReplies_check (h1.append h3) 0 (by decide +kernel), by decide +kernel, by decide +kernel, accepted_proper askFetch_wf _ ?_, ?_, by decide +kernel, by decide +kernel,
    by decide +kernel, by decide +kernel⟩
  · intro x hx; cases hx; unfold ShortStr; decide
  · unfold FitsBuffer; decide +kernel

set_option maxRecDepth 100000 in
/-- The hypotheses of `C106_order` (and of `C106`): one client has received its response before the other has sent its request. -/
example : ∃ (ta tb : List NEv) (na n : Net) (r r' : Bytes), Net.Run (Net.new ⟨9092, []⟩ 0) ta na ∧ Net.Run na tb n ∧ SmallReplies ⟨9092, []⟩ (actsOf 0 (mocks ta)) ∧
    SmallReplies ⟨9092, []⟩ (actsOf 1 (mocks (ta ++ tb))) ∧ (frames (got 0 ta))[0]? = some r ∧ (frames (asked 1 ta)).length ≤ 0 ∧ (frames (got 1 (ta ++ tb)))[0]? = some r' := by
  obtain ⟨h1, _⟩ := untilPost_run
  have h3 : Net.Run afterPost (netEvents fetched afterPost) afterFetch := netAfter_run _ _
  have h4 : Net.Run afterFetch (netEvents askedToo afterFetch) (netAfter askedToo afterFetch) := netAfter_run _ _
  exact ⟨untilPost ++ netEvents fetched afterPost, netEvents askedToo afterFetch, _, _, (got 0 (untilPost ++ netEvents fetched afterPost)).drop 4,
    (got 1 (netEvents askedToo afterFetch)).drop 4, h1.append h3, h4, smallReplies_check (h1.append h3) 0 (by decide +kernel),
    smallReplies_check ((h1.append h3).append h4) 1 (by decide +kernel), by decide +kernel, by decide +kernel, by decide +kernel⟩

end KM.Props
