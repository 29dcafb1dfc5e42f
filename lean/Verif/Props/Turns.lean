import Verif.Props.Origin
import Verif.Props.Sequential
import Verif.CloseClient
/-
C112: clients and tests that use the mock one at a time, waiting for each response and for each return, see the sequential broker at their ends of the connections.
-/
namespace KM.Props
open KM KM.Spec

/-! ### When a connection changes the data -/

theorem readOnly_changes {a : Act} (h : ReadOnly a) : changes a = false := by
  unfold ReadOnly at h
  cases a <;> first | rfl | cases h

/-- A connection changes the data only while it serves a request, before it has begun to write the response. -/
theorem change_before {sv : Server} {inb : Bytes} {l : List REv} {q : Prog Unit} (h : Conv sv inb l q) {l1 l2 : List REv} {e : REv} (hl : l = l1 ++ e :: l2)
    (he : changes e.act = true) : ∃ x m y, l1 = x ++ ⟨.reqBegin m, ()⟩ :: y ∧ writes y = 0 := by
  obtain ⟨x, m, y, d, z, h1, h2, d', h3⟩ := change_served h hl he
  refine ⟨x, m, y, h1, ?_⟩
  rcases dispatcher_answers h2 with ⟨h4, _⟩ | ⟨d1, d2, c, payload, h4, h5, _, _, h6⟩
  · exact writes_silent fun e' he' => h4 e' (by rw [h3]; simp [he'])
  · rw [h3] at h4
    rcases List.append_eq_append_iff.1 h4 with ⟨w, h7, h8⟩ | ⟨w, h7, h8⟩
    · cases w with
      | nil =>
        have := (h6.only (send_only c payload)).2 e (by rw [List.nil_append] at h8; rw [← h8]; simp)
        rw [readOnly_changes this] at he; cases he
      | cons v w => 
        exact writes_silent fun e' he' => h5 e' (by rw [h7]; simp [he'])
    · have := (h6.only (send_only c payload)).2 e (by rw [h8]; simp)
      rw [readOnly_changes this] at he; cases he

/-- When a connection changes the data, its client has sent all of the request and has not received all of the response: the message `i` of which `x` is what the connection had done before
it took it up, and `y` what it has done since. -/
theorem change_open {sv : Server} {clock : Int} {tr : List NEv} {n n' : Net} (h : Net.Run (Net.new sv clock) tr n) {c : Nat} {a : Act} {r : a.Resp}
    (hs : Net.Step n (.mock (.conn c a r)) n') (hch : changes a = true) (hsm : SmallReplies sv (actsOf c (mocks tr))) :
    ∃ x m y, actsOf c (mocks tr) = x ++ ⟨.reqBegin m, ()⟩ :: y ∧ writes y = 0 ∧ (served x).length < (frames (asked c tr)).length ∧
      (frames (got c tr)).length ≤ (served x).length := by
  have h' := h.append (.cons hs (.nil _))
  obtain ⟨q, hq⟩ := acts_own h'.sys c
  have hacts : actsOf c (mocks (tr ++ [.mock (.conn c a r)])) = actsOf c (mocks tr) ++ [⟨a, r⟩] := by
    rw [mocks_append, actsOf_append, show mocks [.mock (.conn c a r)] = [.conn c a r] from rfl, actsOf_self]
  rw [hacts] at hq
  obtain ⟨x, m, y, h1, h2⟩ := change_before (handle_conv hq) rfl hch
  refine ⟨x, m, y, h1, h2, (List.getElem?_eq_some_iff.1 (taken_up h h1)).1, ?_⟩
  refine Nat.not_lt.1 fun hlt => ?_
  obtain ⟨u1, m', u2, payload, u3, req, corr, client, pre, cw, l1, e1, _, _, _, _, _, e7, _, e9, e10, _⟩ :=
    reply_exchange (.nil _) h c hsm (Nat.zero_le _) (List.getElem?_eq_getElem hlt)
  rw [List.nil_append] at e9
  have : actsOf c (mocks tr) = l1 ++ ⟨.reqBegin m', ()⟩ :: (pre ++ replyWrites cw payload ++ actsOf c (mocks u3)) := by
    rw [e1, mocks_append, actsOf_append, mocks_append, actsOf_append, e9, mocks_append, actsOf_append, e10,
      show mocks [.mock (.conn c (.reqBegin m') ())] = [.conn c (.reqBegin m') ()] from rfl, actsOf_self]
    simp
  obtain ⟨_, _, h3⟩ := same_begin (this.symm.trans h1) e7
  rw [← h3, writes_append, writes_append] at h2
  have : writes (replyWrites cw payload) = 3 := rfl
  omega

/-! ### When a caller changes the data -/

/-- The call works on the data. -/
def Call.onData : Call → Bool
  | .simplePost .. | .extendedPost .. | .createPartitionTopics .. | .setConsumerGroupOffset .. => true
  | _ => false

/-- The caller is not in a call that works on the data, or is about to return from it. -/
def AtRest (s : Sys) (i : Nat) : Prop := ∀ p, s.api i = .call p → p = .ret ()

/-- A caller at rest that does not call a function that works on the data stays at rest, and does nothing with the data. -/
theorem rest_step {s s' : Sys} {e : SEv} (h : Sys.Step s e s') {i : Nat} (hr : AtRest s i) (hc : ∀ c, e = .life (.api i c) → Call.onData c = false) :
    AtRest s' i ∧ ∀ a r, e ≠ .call i a r := by
  cases h with
  | life hn =>
    refine ⟨fun p hp => ?_, nofun⟩
    rcases next_call_back hn hp with h1 | ⟨c, rfl, _, h1⟩
    · exact hr p h1
    · have := hc c rfl
      cases c <;> first | (cases h1; done) | cases this
  | conn => exact ⟨fun p hp => hr p hp, nofun⟩
  | unroll => exact ⟨fun p hp => hr p hp, nofun⟩
  | tick => exact ⟨fun p hp => hr p hp, nofun⟩
  | @call j a f r w hp ha =>
    by_cases hj : j = i
    · subst hj; exact absurd (hr _ hp) nofun
    · refine ⟨fun p hp' => hr p ?_, fun a' r' e => hj ?_⟩
      · simpa [Sys.setApi, Ne.symm hj] using hp'
      · cases e; rfl

theorem rest_run {s s' : Sys} {tr : List SEv} (h : Sys.Run s tr s') {i : Nat} (hr : AtRest s i) (hc : ∀ c, SEv.life (.api i c) ∈ tr → Call.onData c = false) :
    AtRest s' i ∧ ∀ a r, SEv.call i a r ∉ tr := by
  induction h with
  | nil => exact ⟨hr, nofun⟩
  | cons h _ ih =>
    obtain ⟨h1, h2⟩ := rest_step h hr fun c e => hc c (by rw [e]; simp)
    obtain ⟨h3, h4⟩ := ih h1 fun c hc' => hc c (List.mem_cons_of_mem _ hc')
    refine ⟨h3, fun a r hm => ?_⟩
    rcases List.mem_cons.1 hm with e | hm
    · exact h2 a r e.symm
    · exact h4 a r hm

/-! ### One at a time -/

/-- No caller calls a function that works on the data. (A step in which a caller goes on with a call or returns from it is labelled with a call, too, which makes no difference to what happens:
`Sys.apiStep`. Here such a label is another function's.) -/
def NoCalls (tr : List NEv) : Prop := ∀ i c, NEv.mock (.life (.api i c)) ∈ tr → Call.onData c = false

/-- The client of connection `c` completes no message. -/
def NoMessage (tr tb : List NEv) (c : Nat) : Prop := (frames (asked c (tr ++ tb))).length ≤ (frames (asked c tr)).length

/-- The call that a test makes. -/
def Happening.call : Happening → Option Call
  | .answered .. => none
  | .posted c => some c.call
  | .created n ts => some (.createPartitionTopics n ts)
  | .reset t n g o => some (.setConsumerGroupOffset t n g o)

/-- Clients and tests use the mock one at a time: from the time when a client completes a request until it has received all of the response, and from the time when a test calls a function that
works on the data until that is about to return, no other request is completed and no other such function called. -/
inductive OneAtATime (sv : Server) (clock : Int) : List NEv → Net → List Happening → Prop where
  | new : OneAtATime sv clock [] (Net.new sv clock) []
  /-- nobody uses the mock -/
  | wait {tr tb : List NEv} {n n' : Net} {l : List Happening} (h : OneAtATime sv clock tr n l) (hr : Net.Run n tb n') (hc : NoCalls tb) (hm : ∀ d, NoMessage tr tb d) :
      OneAtATime sv clock (tr ++ tb) n' l
  /-- the client of connection `c` completes a request and receives the response -/
  | request {tr tb : List NEv} {n n' : Net} {l : List Happening} {c : Nat} {req : Request} {corr : I32} {client : Option Bytes} {m r b : Bytes} (h : OneAtATime sv clock tr n l)
      (hr : Net.Run n tb n') (hc : NoCalls tb) (hm : ∀ d, d ≠ c → NoMessage tr tb d) (hq : (frames (asked c (tr ++ tb))).length = (frames (asked c tr)).length + 1)
      (hi : (frames (asked c (tr ++ tb)))[(frames (asked c tr)).length]? = some m) (ha : Accepted req corr client m) (hb : FitsBuffer req corr client)
      (hg : (frames (got c (tr ++ tb)))[(frames (asked c tr)).length]? = some r) (hl : r.length + 4 < 2 ^ 31) (hf : Framed b [r]) :
      OneAtATime sv clock (tr ++ tb) n' (l ++ [.answered req corr b])
  /-- a test makes a call, which is about to return -/
  | call {tr tb : List NEv} {n n' : Net} {l : List Happening} {i : Nat} {x : Happening} {c : Call} (h : OneAtATime sv clock tr n l) (hx : x.call = some c) (hi : n.sys.api i = .idle)
      (hr : Net.Run n (.mock (.life (.api i c)) :: tb) n') (hc : NoCalls tb) (hin : ∀ c', NEv.mock (.life (.api i c')) ∉ tb) (he : n'.sys.api i = .call (.ret ()))
      (hm : ∀ d, NoMessage tr (.mock (.life (.api i c)) :: tb) d) : OneAtATime sv clock (tr ++ .mock (.life (.api i c)) :: tb) n' (l ++ [x])

theorem OneAtATime.run {sv : Server} {clock : Int} {tr : List NEv} {n : Net} {l : List Happening} (h : OneAtATime sv clock tr n l) : Net.Run (Net.new sv clock) tr n := by
  induction h with
  | new => exact .nil _
  | wait _ hr _ _ ih => exact ih.append hr
  | request _ hr _ _ _ _ _ _ _ _ _ ih => exact ih.append hr
  | call _ _ _ hr _ _ _ _ ih => exact ih.append hr

theorem mem_mocks {e : SEv} {tr : List NEv} : e ∈ mocks tr ↔ NEv.mock e ∈ tr := by
  unfold mocks
  rw [List.mem_filterMap]
  constructor
  · rintro ⟨x, h1, h2⟩
    cases x <;> cases h2
    exact h1
  · exact fun h => ⟨_, h, rfl⟩

/-- In between, every client has received all responses and every caller is at rest. -/
theorem OneAtATime.done {sv : Server} {clock : Int} {tr : List NEv} {n : Net} {l : List Happening} (h : OneAtATime sv clock tr n l) :
    (∀ c, (frames (asked c tr)).length ≤ (frames (got c tr)).length) ∧ ∀ i, AtRest n.sys i := by
  have grow : ∀ c (a b : List NEv), (frames (got c a)).length ≤ (frames (got c (a ++ b))).length := fun c a b => by
    rw [got_append]; exact (frames_append _ _).length_le
  induction h with
  | new => exact ⟨fun c => Nat.le_refl _, fun i p hp => by cases hp⟩
  | @wait tr tb _ _ _ _ hr hc hm ih =>
    refine ⟨fun c => Nat.le_trans (hm c) (Nat.le_trans (ih.1 c) (grow c tr tb)), fun i => (rest_run hr.sys (ih.2 i) fun c h => hc i c (mem_mocks.1 h)).1⟩
  | @request tr tb _ _ _ c _ _ _ _ _ _ _ hr hc hm hq hi ha hb hg hl hf ih =>
    refine ⟨fun d => ?_, fun i => (rest_run hr.sys (ih.2 i) fun c h => hc i c (mem_mocks.1 h)).1⟩
    by_cases hd : d = c
    · subst hd
      have := (List.getElem?_eq_some_iff.1 hg).1
      omega
    · exact Nat.le_trans (hm d hd) (Nat.le_trans (ih.1 d) (grow d tr tb))
  | @call tr tb n n' _ i x c _ hx hi hr hc hin he hm ih =>
    refine ⟨fun c => Nat.le_trans (hm c) (Nat.le_trans (ih.1 c) (grow c tr _)), fun j => ?_⟩
    by_cases hj : j = i
    · subst hj
      intro p hp
      rw [he] at hp; cases hp; rfl
    · refine (rest_run hr.sys (ih.2 j) fun c' h => ?_).1
      rcases List.mem_cons.1 (mem_mocks.1 h) with h | h
      · cases h; exact absurd rfl hj
      · exact hc j c' h

theorem Session.trans {sv : Server} {clock : Int} {s s' s'' : Sys} {l l' : List Happening} (h : Session sv clock s l s') (h' : Session sv clock s' l' s'') : Session sv clock s (l ++ l') s'' := by
  induction h with
  | nil => exact h'
  | idle h hu _ ih => exact .idle h hu (ih h')
  | request h ho hs _ ih => exact .request h ho hs (ih h')
  | post h ho _ ih => exact .post h ho (ih h')
  | create h ho _ ih => exact .create h ho (ih h')
  | reset h ho _ ih => exact .reset h ho (ih h')

/-- A connection whose client waits for nothing does not change the data. -/
theorem no_change {sv : Server} {clock : Int} {tr tb : List NEv} {n n' : Net} (h : Net.Run (Net.new sv clock) tr n) (hr : Net.Run n tb n') {d : Nat}
    (hd : (frames (asked d tr)).length ≤ (frames (got d tr)).length) (hm : NoMessage tr tb d) (hs : SmallReplies sv (actsOf d (mocks (tr ++ tb)))) {a : Act} {r : a.Resp}
    (he : SEv.conn d a r ∈ mocks tb) : changes a = false := by
  refine Bool.eq_false_iff.2 fun hch => ?_
  obtain ⟨t1, t2, rfl⟩ := List.append_of_mem (mem_mocks.1 he)
  obtain ⟨n1, r1, r2⟩ := hr.split
  cases r2 with
  | cons hst _ =>
  rw [← List.append_assoc, mocks_append, actsOf_append] at hs
  obtain ⟨x, m, y, h1, _, h3, h4⟩ := change_open (h.append r1) hst hch hs.left
  have k1 : (frames (asked d (tr ++ t1))).length ≤ (frames (asked d (tr ++ (t1 ++ .mock (.conn d a r) :: t2)))).length := by
    rw [← List.append_assoc, asked_append d (tr ++ t1)]; exact (frames_append _ _).length_le
  have k2 : (frames (got d tr)).length ≤ (frames (got d (tr ++ t1))).length := by
    rw [got_append]; exact (frames_append _ _).length_le
  unfold NoMessage at hm
  omega

theorem unchanged_append {a b : List SEv} (h : Unchanged a) (h' : Unchanged b) : Unchanged (a ++ b) := fun e he => (List.mem_append.1 he).elim (h e) (h' e)

/-- Who uses the mock one at a time uses it as in C93. -/
theorem OneAtATime.session {sv : Server} {clock : Int} {tr : List NEv} {n : Net} {l : List Happening} (h : OneAtATime sv clock tr n l)
    (hroom : ∀ t p, ∀ x ∈ (n.sys.view 0).log t p, wireSize x < 2 ^ 31) (hnames : ∀ t, (n.sys.view 0).hasTopic t → ShortStr t)
    (hs : ∀ c, SmallReplies sv (actsOf c (mocks tr))) : Session sv clock (Sys.new sv clock) l n.sys := by
  have left : ∀ {tr tb : List NEv}, (∀ c, SmallReplies sv (actsOf c (mocks (tr ++ tb)))) → ∀ c, SmallReplies sv (actsOf c (mocks tr)) := fun h c => by
    have := h c; rw [mocks_append, actsOf_append] at this; exact this.left
  have room : ∀ {n n' : Net} {tb : List NEv}, Net.Run n tb n' → (∀ t p, ∀ x ∈ (n'.sys.view 0).log t p, wireSize x < 2 ^ 31) → ∀ t p, ∀ x ∈ (n.sys.view 0).log t p, wireSize x < 2 ^ 31 :=
    fun hr h t p x hx => h t p x (by rw [(C46_kept hr.sys).1]; exact List.mem_append_left _ hx)
  have names : ∀ {n n' : Net} {tb : List NEv}, Net.Run n tb n' → (∀ t, (n'.sys.view 0).hasTopic t → ShortStr t) → ∀ t, (n.sys.view 0).hasTopic t → ShortStr t :=
    fun hr h t ht => h t ((C46_kept hr.sys).2.2.1 t ht)
  induction h with
  | new => exact .nil _
  | @wait tr tb n n' l h hr hc hm ih =>
    have := (ih (room hr hroom) (names hr hnames) (left hs)).trans (.idle hr.sys (tr := mocks tb) ?_ (.nil _))
    · rwa [List.append_nil] at this
    · intro e he
      cases e with
      | conn d a r => simp [changedBy, no_change h.run hr (h.done.1 d) (hm d) (hs d) he]
      | call i a r => exact absurd he ((rest_run hr.sys (h.done.2 i) fun c h => hc i c (mem_mocks.1 h)).2 a r)
      | _ => rfl
  | @request tr tb n n' l c req corr client m r b h hr hc hm hq hi ha hb hg hl hf ih =>
    refine (ih (room hr hroom) (names hr hnames) (left hs)).trans ?_
    obtain ⟨h1, h2⟩ := h.done
    obtain ⟨u1, m', u2, payload, u3, req', corr', client', pre, cw, l1, e1, e2, e3, e4, _, _, e7, e8, e9, e10, e11⟩ := reply_exchange h.run hr c (hs c) (Nat.le_refl _) hg
    subst e1
    obtain ⟨n1, r1, r2⟩ := hr.split
    obtain ⟨n2, r3, r4⟩ := r2.split
    obtain ⟨n0, r5, r6⟩ := r1.split
    have hx : Exchange sv clock c req' corr' (mocks (tr ++ u1)) n1.sys (mocks (u2 ++ [.mock (.conn c (.write payload) true)])) n2.sys := by
      refine e11 _ _ _ _ ⟨⟨n0.sys, (h.run.append r5).sys, ?_⟩, r3.sys, e9, e10⟩
      have r6' := r6.sys
      cases r6' with
      | cons x1 x2 => cases x2; exact x1
    have : m' = m := by
      have : (frames (asked c (tr ++ u1) ++ asked c ([.mock (.conn c (.reqBegin m') ())] ++ ((u2 ++ [.mock (.conn c (.write payload) true)]) ++ u3))))[(frames (asked c tr)).length]? = some m' := by
        obtain ⟨z, hz⟩ := frames_append (asked c (tr ++ u1)) (asked c ([.mock (.conn c (.reqBegin m') ())] ++ ((u2 ++ [.mock (.conn c (.write payload) true)]) ++ u3)))
        rw [← hz, List.getElem?_append_left (List.getElem?_eq_some_iff.1 e2).1, e2]
      rw [← asked_append, show tr ++ u1 ++ ([.mock (.conn c (.reqBegin m') ())] ++ ((u2 ++ [.mock (.conn c (.write payload) true)]) ++ u3)) =
        tr ++ (u1 ++ [.mock (.conn c (.reqBegin m') ())] ++ ((u2 ++ [.mock (.conn c (.write payload) true)]) ++ u3)) by simp, hi] at this
      exact (Option.some.inj this).symm
    subst this
    obtain ⟨rfl, rfl, _⟩ := C103_unambiguous (e := []) (e' := []) ha hb e3 e4 rfl
    rw [← e10] at e8
    cases framed_unique hf e8
    -- only this connection changes the data
    have only : OnlyBy (.conn c) (mocks (u1 ++ [.mock (.conn c (.reqBegin m') ())] ++ ((u2 ++ [.mock (.conn c (.write payload) true)]) ++ u3))) := by
      intro e he y hy
      cases e with
      | conn d a r =>
        by_cases hd : d = c
        · subst hd
          simp only [changedBy] at hy
          split at hy <;> cases hy
          rfl
        · have := no_change h.run hr (h1 d) (hm d hd) (hs d) he
          simp [changedBy, this] at hy
      | call i a r => exact absurd he ((rest_run hr.sys (h2 i) fun c h => hc i c (mem_mocks.1 h)).2 a r)
      | _ => cases hy
    -- and only while it serves the request
    have inside : ∀ (t1 : List NEv) (a : Act) (r : a.Resp) (t2 : List NEv), u1 ++ [.mock (.conn c (.reqBegin m') ())] ++ ((u2 ++ [.mock (.conn c (.write payload) true)]) ++ u3) =
        t1 ++ .mock (.conn c a r) :: t2 → changes a = true → ∃ x m y, actsOf c (mocks (tr ++ t1)) = x ++ ⟨.reqBegin m, ()⟩ :: y ∧ writes y = 0 ∧ (served x).length = (served l1).length := by
      intro t1 a r t2 ht hch
      rw [ht] at hr hs hq
      obtain ⟨n3, s1, s2⟩ := hr.split
      cases s2 with
      | cons hst _ =>
      have hsm := hs c
      rw [← List.append_assoc, mocks_append, actsOf_append] at hsm
      obtain ⟨x, m, y, k1, k2, k3, k4⟩ := change_open (h.run.append s1) hst hch hsm.left
      have k5 : (frames (asked c (tr ++ t1))).length ≤ (frames (asked c (tr ++ (t1 ++ .mock (.conn c a r) :: t2)))).length := by
        rw [← List.append_assoc, asked_append c (tr ++ t1)]; exact (frames_append _ _).length_le
      have k6 : (frames (got c tr)).length ≤ (frames (got c (tr ++ t1))).length := by
        rw [got_append]; exact (frames_append _ _).length_le
      have := h1 c
      exact ⟨x, m, y, k1, k2, by omega⟩
    have before : Unchanged (mocks (u1 ++ [.mock (.conn c (.reqBegin m') ())])) := by
      intro e he
      cases hch : changedBy e with
      | none => rfl
      | some y =>
        have := only e (by rw [mocks_append]; exact List.mem_append_left _ he) y hch
        subst this
        obtain ⟨a, r, rfl, hch'⟩ : ∃ a r, e = .conn c a r ∧ changes a = true := by
          cases e with
          | conn d a r =>
            simp only [changedBy] at hch
            split at hch <;> cases hch
            exact ⟨_, _, rfl, by assumption⟩
          | call i a r => simp only [changedBy] at hch; split at hch <;> cases hch
          | _ => cases hch
        rcases List.mem_append.1 (mem_mocks.1 he) with he | he
        · obtain ⟨t1, t2, rfl⟩ := List.append_of_mem he
          obtain ⟨x, m, y, k1, _, k3⟩ := inside t1 a r (t2 ++ [.mock (.conn c (.reqBegin m') ())] ++ ((u2 ++ [.mock (.conn c (.write payload) true)]) ++ u3)) (by simp) hch'
          rw [← List.append_assoc, mocks_append, actsOf_append, k1] at e9
          rw [← e9, KM.served_append', KM.served_append', List.length_append, List.length_append] at k3
          simp [served] at k3
          omega
        · cases List.mem_singleton.1 he
          cases hch'
    have after : Unchanged (mocks u3) := by
      intro e he
      cases hch : changedBy e with
      | none => rfl
      | some y =>
        have := only e (by rw [mocks_append, mocks_append _ u3]; simp [he]) y hch
        subst this
        obtain ⟨a, r, rfl, hch'⟩ : ∃ a r, e = .conn c a r ∧ changes a = true := by
          cases e with
          | conn d a r =>
            simp only [changedBy] at hch
            split at hch <;> cases hch
            exact ⟨_, _, rfl, by assumption⟩
          | call i a r => simp only [changedBy] at hch; split at hch <;> cases hch
          | _ => cases hch
        obtain ⟨t1, t2, rfl⟩ := List.append_of_mem (mem_mocks.1 he)
        obtain ⟨x, m, y, k1, k2, k3⟩ := inside (u1 ++ [.mock (.conn c (.reqBegin m') ())] ++ ((u2 ++ [.mock (.conn c (.write payload) true)]) ++ t1)) a r t2 (by simp) hch'
        have : actsOf c (mocks (tr ++ (u1 ++ [.mock (.conn c (.reqBegin m') ())] ++ ((u2 ++ [.mock (.conn c (.write payload) true)]) ++ t1)))) =
            l1 ++ ⟨.reqBegin m', ()⟩ :: (pre ++ replyWrites cw payload ++ actsOf c (mocks t1)) := by
          rw [show tr ++ (u1 ++ [.mock (.conn c (.reqBegin m') ())] ++ ((u2 ++ [.mock (.conn c (.write payload) true)]) ++ t1)) =
            tr ++ u1 ++ ([.mock (.conn c (.reqBegin m') ())] ++ ((u2 ++ [.mock (.conn c (.write payload) true)]) ++ t1)) by simp, mocks_append, actsOf_append, e9, mocks_append, actsOf_append,
            mocks_append _ t1, actsOf_append _ _ (mocks t1), e10, show mocks [.mock (.conn c (.reqBegin m') ())] = [.conn c (.reqBegin m') ()] from rfl, actsOf_self]
          simp
        obtain ⟨_, _, k4⟩ := same_begin (this.symm.trans k1) k3.symm
        rw [← k4, writes_append, writes_append] at k2
        have : writes (replyWrites cw payload) = 3 := rfl
        omega
    refine .idle r1.sys before (.request hx (fun e he => only e ?_) ⟨room (r3.append r4) hroom, names r4 hnames, ?_⟩ (.idle r4.sys after (.nil _)))
    · rw [mocks_append, mocks_append _ u3]; simp [he]
    · have : ∀ {b : Bytes}, Framed b [r] → b.length = r.length + 4 := by
        intro b hb
        cases hb with
        | cons g1 g2 g3 =>
          cases g3
          rw [List.append_nil, List.length_append]
          omega
      rw [this e8]
      omega
  | @call tr tb n n' l i x c h hx hi hr hc hin he hm ih =>
    refine (ih (room hr hroom) (names hr hnames) (left hs)).trans ?_
    have hcr : CallRun n.sys i c (mocks tb) n'.sys := by
      have := hr.sys
      cases this with
      | cons h1 h2 => exact ⟨hi, ⟨_, h1, h2⟩, fun c' h => hin c' (mem_mocks.1 h), he⟩
    have ho : OnlyBy (.caller i) (mocks tb) := by
      intro e hem y hy
      have hem' : e ∈ mocks (.mock (.life (.api i c)) :: tb) := List.mem_cons_of_mem _ hem
      cases e with
      | conn d a r =>
        have := no_change h.run hr (h.done.1 d) (hm d) (hs d) hem'
        simp [changedBy, this] at hy
      | call j a r =>
        by_cases hj : j = i
        · subst hj
          simp only [changedBy] at hy
          split at hy <;> cases hy
          rfl
        · refine absurd hem' ((rest_run hr.sys (h.done.2 j) fun c' h => ?_).2 a r)
          rcases List.mem_cons.1 (mem_mocks.1 h) with h | h
          · cases h; exact absurd rfl hj
          · exact hc j c' h
      | _ => cases hy
    cases x with
    | answered => cases hx
    | posted => cases hx; exact .post hcr ho (.nil _)
    | created => cases hx; exact .create hcr ho (.nil _)
    | reset => cases hx; exact .reset hcr ho (.nil _)

/-- **C112**: who uses the mock one at a time, waiting for responses and returns, uses the machine of `Spec/Sequence.lean`: the responses that the clients receive, and the data that the mock
has in the end, are determined by it. -/
theorem C112 {sv : Server} {clock : Int} {tr : List NEv} {n : Net} {l : List Happening} (h : OneAtATime sv clock tr n l)
    (hroom : ∀ t p, ∀ x ∈ (n.sys.view 0).log t p, wireSize x < 2 ^ 31) (hnames : ∀ t, (n.sys.view 0).hasTopic t → ShortStr t)
    (hs : ∀ c, SmallReplies sv (actsOf c (mocks tr))) :
    ∃ us, List.Forall₂ Received l us ∧ Behaves Data.empty clock us (data n.sys) n.sys.clock := C93_new (h.session hroom hnames hs)

end KM.Props
