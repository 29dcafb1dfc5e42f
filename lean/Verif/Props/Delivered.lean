import Verif.Props.Seen
import Verif.Props.Total
import Verif.Props.HangUp
/-
C108: a client that sends a request receives the response: C102 from one end of the connection to the other, under a fair scheduler and a network that delivers.
-/
namespace KM.Props
open KM KM.Spec

/-- An endless run of the mock with its clients, under a fair scheduler (as `Endless`). -/
structure NetEndless (sv : Server) (clock : Int) (ns : Nat → Net) (es : Nat → NEv) (F : Goroutine → Prop := fun _ => True) : Prop where
  first : ns 0 = Net.new sv clock
  step : ∀ n, Net.Step (ns n) (es n) (ns (n + 1))
  fair : ∀ t, F t → (∀ n, ∃ m, n ≤ m ∧ (ns m).sys.ready t) → ∀ n, ∃ m, n ≤ m ∧ (inMock (es m)).of = some t

/-- Connection `c` works, and stays: it has been accepted, nobody tells the mock to finish, the client does not close it and no write fails. The network delivers: bytes that wait are
not left lying for ever when the mock reads again and again, and the client receives what waits for it. -/
structure Working (ns : Nat → Net) (es : Nat → NEv) (c : Nat) : Prop where
  accepted : ∃ n, (ns n).sys.conns[c]? ≠ none
  untold : ∀ n k, (ns n).sys.conns[c]? = some k → (ns n).sys.isDone k.ctx = false
  stays : ∀ n, es n ≠ .mock (.conn c .recv .closed)
  writes : ∀ n b, es n ≠ .mock (.conn c (.write b) false)
  arrives : ∀ n, (∀ m, n ≤ m → ((ns m).links c).up ≠ []) → (∀ k, n ≤ k → ∃ m r, k ≤ m ∧ es m = .mock (.conn c .recv r)) → ∃ m b, n ≤ m ∧ es m = .mock (.conn c .recv (.data b))
  receives : ∀ n, ((ns n).links c).down ≠ [] → ∃ m b, n ≤ m ∧ b ≠ [] ∧ es m = .receive c b

/-- No response is 4 GiB or larger (C13). -/
def BelowLimit (es : Nat → NEv) (c : Nat) : Prop := ∀ n b ok, es n = .mock (.conn c (.write b) ok) → b.length + 4 < 2 ^ 32

/-- The first `n` events. -/
def upTo (es : Nat → NEv) (n : Nat) : List NEv := (List.range n).map es

def sysOf (ns : Nat → Net) (n : Nat) : Sys := (ns n).sys
def evOf (es : Nat → NEv) (n : Nat) : SEv := inMock (es n)

variable {sv : Server} {clock : Int} {ns : Nat → Net} {es : Nat → NEv}

theorem upTo_succ (es : Nat → NEv) (n : Nat) : upTo es (n + 1) = upTo es n ++ [es n] := by
  unfold upTo; rw [List.range_succ, List.map_append]; rfl

theorem upTo_le {n m : Nat} (h : n ≤ m) : ∃ l, upTo es m = upTo es n ++ l := by
  induction h with
  | refl => exact ⟨[], (List.append_nil _).symm⟩
  | @step m _ ih =>
    obtain ⟨l, hl⟩ := ih
    exact ⟨l ++ [es m], by rw [upTo_succ, hl, List.append_assoc]⟩

theorem NetEndless.run (h : NetEndless sv clock ns es F) (n : Nat) : Net.Run (Net.new sv clock) (upTo es n) (ns n) := by
  induction n with
  | zero => rw [h.first]; exact .nil _
  | succ n ih => rw [upTo_succ]; exact ih.append (.cons (h.step n) (.nil _))

theorem NetEndless.run_from (h : NetEndless sv clock ns es F) {n m : Nat} (hnm : n ≤ m) : ∃ l, upTo es m = upTo es n ++ l ∧ Net.Run (ns n) l (ns m) := by
  induction hnm with
  | refl => exact ⟨[], (List.append_nil _).symm, .nil _⟩
  | @step m _ ih =>
    obtain ⟨l, hl, hr⟩ := ih
    exact ⟨l ++ [es m], by rw [upTo_succ, hl, List.append_assoc], hr.append (.cons (h.step m) (.nil _))⟩

theorem NetEndless.endless (h : NetEndless sv clock ns es F) : KM.Endless sv clock (sysOf ns) (evOf es) F :=
  ⟨by unfold sysOf; rw [h.first]; rfl, fun n => inMock_step (h.step n), h.fair⟩

theorem past_upTo (es : Nat → NEv) (c n : Nat) : past (evOf es) c n = actsOf c (mocks (upTo es n)) := by
  rw [← actsOf_inMock]
  unfold past evs upTo evOf
  rw [List.map_map]
  simp only [Nat.zero_add]
  rfl

theorem NetEndless.conv (h : NetEndless sv clock ns es F) (c n : Nat) : ∃ q, Conv sv [] (past (evOf es) c n) q := by
  obtain ⟨q, hq⟩ := acts_own (h.run n).sys c
  rw [past_upTo]
  exact ⟨q, handle_conv hq⟩

theorem mem_past {c n : Nat} {a : Act} {r : a.Resp} (h : (⟨a, r⟩ : REv) ∈ past (evOf es) c n) : ∃ j, j < n ∧ es j = .mock (.conn c a r) := by
  have := mem_actsOf h
  unfold evs at this
  obtain ⟨j, h1, h2⟩ := List.mem_map.1 this
  refine ⟨j, List.mem_range.1 h1, ?_⟩
  simp only [evOf, Nat.zero_add] at h2
  cases e : es j <;> rw [e] at h2
  · exact congrArg _ h2
  · cases h2
  · cases h2

theorem Working.allSent {c : Nat} (w : Working ns es c) (n : Nat) : AllSent (past (evOf es) c n) := by
  intro b hb
  obtain ⟨j, _, e⟩ := mem_past hb
  exact w.writes j b e

theorem small_past {c : Nat} (w : BelowLimit es c) (n : Nat) : Small (past (evOf es) c n) := by
  intro b ok hb
  obtain ⟨j, _, e⟩ := mem_past hb
  exact w j b ok e

theorem past_snoc {c n : Nat} {a : Act} {r : a.Resp} (h : es n = .mock (.conn c a r)) : past (evOf es) c (n + 1) = past (evOf es) c n ++ [⟨a, r⟩] := by
  rw [past_succ, show evOf es n = .conn c a r from by unfold evOf; rw [h]; rfl, actsOf_self]

/-! ### The mock reads again and again -/

/-- A connection that nobody has told to finish is not closed. -/
theorem Working.not_closed (h : NetEndless sv clock ns es F) {c : Nat} (w : Working ns es c) (n : Nat) : (⟨.close, ()⟩ : REv) ∉ past (evOf es) c n := by
  intro hm
  obtain ⟨q, hq⟩ := h.conv c n
  obtain ⟨l1, l2, hl⟩ := List.append_of_mem hm
  obtain ⟨l0, rfl⟩ := close_after_done hq hl
  have hd : (⟨.isDone, true⟩ : REv) ∈ past (evOf es) c n := by rw [hl]; simp
  obtain ⟨j, _, hj⟩ := mem_past hd
  have hst := inMock_step (h.step j)
  rw [hj] at hst
  have hst : Sys.Step (ns j).sys (.conn c .isDone true) (ns (j + 1)).sys := hst
  generalize (ns (j + 1)).sys = s' at hst
  cases hst with
  | @conn _ ku _ fu _ wu hcu hpu ha =>
    have : (ns j).sys.isDone ku.ctx = true := ha.2.symm
    rw [w.untold j ku hcu] at this
    cases this

theorem Working.exists_conn (h : NetEndless sv clock ns es F) {c : Nat} (w : Working ns es c) (n : Nat) : ∃ m, n ≤ m ∧ (ns m).sys.conns[c]? ≠ none := by
  obtain ⟨n0, h0⟩ := w.accepted
  refine ⟨max n n0, Nat.le_max_left .., fun hn => h0 ?_⟩
  have := h.endless.run (n := n0) (m := max n n0) (Nat.le_max_right ..)
  obtain ⟨_, hr⟩ := this
  exact Sys.Run.not_yet hr hn

theorem Working.reads (h : NetEndless sv clock ns es F) {c : Nat} (w : Working ns es c) (hr : RoomyOn (sysOf ns) (evOf es) c) (n : Nat) (hF : F (.conn c) := by first | exact trivial | assumption) :
    ∃ m r, n ≤ m ∧ es m = .mock (.conn c .recv r) := by
  obtain ⟨m0, h0, h1⟩ := w.exists_conn h n
  obtain ⟨m, m1, ⟨a, r, he, ho⟩ | ⟨k, hk, hb⟩⟩ := h.endless.reads_on hr h1
  · have he' : es m = .mock (.conn c a r) := by
      unfold evOf at he
      cases e : es m <;> rw [e] at he
      · exact congrArg _ he
      · cases he
      · cases he
    rcases ho with rfl | rfl
    · exact ⟨m, r, by omega, he'⟩
    · exact absurd (by rw [past_snoc he']; simp) (w.not_closed h (m + 1))
  · exfalso
    have hrun := (h.run m).sys
    have := C80_closed_partial hrun hk hb (fun hm => by
      rw [← past_upTo] at hm
      obtain ⟨j, _, e⟩ := mem_past hm
      exact w.stays j e)
    rw [← past_upTo] at this
    exact w.not_closed h m this

/-- All that the client has sent is read. -/
theorem Working.all_read (h : NetEndless sv clock ns es F) {c : Nat} (w : Working ns es c) (hr : RoomyOn (sysOf ns) (evOf es) c) (n : Nat) (hF : F (.conn c) := by first | exact trivial | assumption) :
    ∃ m, n ≤ m ∧ (asked c (upTo es n)).length ≤ (readIn (past (evOf es) c m)).length := by
  have key : ∀ d k, n ≤ k → (asked c (upTo es n)).length ≤ (readIn (past (evOf es) c k)).length + d →
      ∃ m, n ≤ m ∧ (asked c (upTo es n)).length ≤ (readIn (past (evOf es) c m)).length := by
    intro d
    induction d with
    | zero => intro k h1 h2; exact ⟨k, h1, h2⟩
    | succ d ih =>
      intro k h1 h2
      by_cases h3 : (asked c (upTo es n)).length ≤ (readIn (past (evOf es) c k)).length
      · exact ⟨k, h1, h3⟩
      · have mono : ∀ m, k ≤ m → ∃ l, past (evOf es) c m = past (evOf es) c k ++ l := fun m hm => past_prefix hm
        obtain ⟨m, b, m1, m2⟩ : ∃ m b, k ≤ m ∧ es m = .mock (.conn c .recv (.data b)) := by
          apply Classical.byContradiction
          intro hno
          have same : ∀ m, k ≤ m → readIn (past (evOf es) c m) = readIn (past (evOf es) c k) := by
            intro m hm
            induction hm with
            | refl => rfl
            | @step m hm ih =>
              rw [past_succ, readIn_append, ih]
              have : readIn (actsOf c [evOf es m]) = [] := by
                rcases hl : actsOf c [evOf es m] with _ | ⟨⟨a, r⟩, l⟩
                · rfl
                · have hle : (actsOf c [evOf es m]).length ≤ 1 := List.length_filterMap_le _ _
                  rw [hl] at hle
                  have : l = [] := List.eq_nil_of_length_eq_zero (by simpa using hle)
                  subst this
                  cases a with
                  | recv =>
                    cases r with
                    | data b =>
                      exfalso
                      have hm' : (⟨.recv, .data b⟩ : REv) ∈ actsOf c [evOf es m] := by rw [hl]; simp
                      have hm' := List.mem_singleton.1 (mem_actsOf hm')
                      refine hno ⟨m, b, hm, ?_⟩
                      unfold evOf at hm'
                      cases e : es m <;> rw [e] at hm'
                      · exact congrArg _ hm'.symm
                      · cases hm'
                      · cases hm'
                    | _ => rfl
                  | _ => rfl
              rw [this, List.append_nil]
          refine hno (w.arrives k (fun m hm hup => ?_) fun k' _ => w.reads h hr k')
          have ha := (h.run m).asked c
          rw [hup, List.append_nil, ← past_upTo, same m hm] at ha
          obtain ⟨l, hl⟩ := upTo_le (es := es) (show n ≤ m by omega)
          have := congrArg List.length ha
          rw [hl, asked_append] at this
          simp [Net.new] at this
          omega
        refine ih (m + 1) (by omega) ?_
        have hb : b ≠ [] := by
          have hst := h.step m
          rw [m2] at hst
          generalize ns (m + 1) = n' at hst
          cases hst with
          | mock _ hl => exact hl.1
        obtain ⟨l, hl⟩ := mono m m1
        have := List.length_pos_iff.2 hb
        rw [past_snoc m2, readIn_append, hl, readIn_append]
        simp only [List.length_append, readIn, List.append_nil]
        omega
  exact key _ n (Nat.le_refl n) (Nat.le_add_left ..)

/-- When a connection reads, it has put all that it has read before into its buffer. -/
theorem recv_kept {inb : Bytes} {l : List REv} {q : Prog Unit} (h : Conv sv inb l q) (hs : (⟨.isStopping, true⟩ : REv) ∉ l) {l1 l2 : List REv} {r : RecvResult}
    (hl : l = l1 ++ ⟨.recv, r⟩ :: l2) : received l1 = readIn l1 := by
  have inner : ∀ {l x : List REv}, (∀ e ∈ l, Inner e.act) → readIn (l ++ x) = readIn x := by
    intro l x h
    induction l with
    | nil => rfl
    | cons e l ih =>
      have he := h e (List.mem_cons_self ..)
      have := ih fun e he => h e (List.mem_cons_of_mem _ he)
      obtain ⟨a, r⟩ := e
      cases a with
      | recv => exact he.elim
      | _ => exact this
  have hne : ∀ {l : List REv}, (∀ e ∈ l, Inner e.act) → (⟨.recv, r⟩ : REv) ∉ l := fun h hm => h _ hm
  induction h generalizing l1 with
  | head => cases l1 <;> cases hl
  | part hn hl' _ =>
    rcases hl' with rfl | ⟨d, rfl⟩ | rfl | ⟨r, rfl⟩
    · cases l1 <;> cases hl
    · rcases l1 with _ | ⟨_, _ | _⟩ <;> cases hl
    · rcases l1 with _ | ⟨_, _ | ⟨_, _ | _⟩⟩ <;> cases hl
    · rcases l1 with _ | ⟨_, _ | ⟨_, _ | _⟩⟩ <;> cases hl
      rfl
  | timeout hn h ih =>
    rcases l1 with _ | ⟨_, _ | ⟨_, l1⟩⟩
    · cases hl
    · cases hl; rfl
    · cases hl; exact ih (l1 := l1) (fun h => hs (List.mem_cons_of_mem _ (List.mem_cons_of_mem _ h))) rfl
  | ignored hn h ih => exact absurd (by simp) hs
  | @read inb b l q hn h ih =>
    rcases l1 with _ | ⟨_, _ | ⟨_, _ | ⟨_, l1⟩⟩⟩
    · cases hl
    · cases hl; rfl
    · cases hl
    · cases hl
      show b ++ received l1 = b ++ readIn l1
      rw [ih (fun h => hs (List.mem_cons_of_mem _ (List.mem_cons_of_mem _ (List.mem_cons_of_mem _ h)))) rfl]
  | huge => cases l1 <;> cases hl
  | begin => cases l1 <;> cases hl
  | @serving inb m l x q hm hd =>
    rcases l1 with _ | ⟨_, l1⟩
    · cases hl
    · cases hl
      exact absurd (by simp) (hne (dispatcher_inner hd))
  | @rejected inb m l hm hd =>
    rcases l1 with _ | ⟨_, l1⟩
    · cases hl
    · simp only [List.cons_append, List.cons.injEq] at hl
      obtain ⟨l1', rfl, e⟩ := split_after hl.2 (hne (dispatcher_inner hd))
      rcases l1' with _ | ⟨_, _ | _⟩ <;> cases e
  | @served inb m l l2' q hm hd h ih =>
    rcases l1 with _ | ⟨_, l1⟩
    · cases hl
    · simp only [List.cons_append, List.cons.injEq] at hl
      obtain ⟨rfl, hl⟩ := hl
      obtain ⟨l1', rfl, e⟩ := split_after hl (hne (dispatcher_inner hd))
      rcases l1' with _ | ⟨_, l1'⟩
      · cases e
      · simp only [List.cons_append, List.cons.injEq] at e
        obtain ⟨rfl, e⟩ := e
        show received (l ++ ⟨.reqEnd, ()⟩ :: l1') = readIn (l ++ ⟨.reqEnd, ()⟩ :: l1')
        rw [received_inner (dispatcher_inner hd), inner (dispatcher_inner hd)]
        exact ih (l1 := l1') (fun h => hs (by simp [h])) e

/-- All that the client has sent arrives. -/
theorem Working.all_arrives (h : NetEndless sv clock ns es F) {c : Nat} (w : Working ns es c) (hr : RoomyOn (sysOf ns) (evOf es) c) (n : Nat) (hF : F (.conn c) := by first | exact trivial | assumption) :
    ∃ m, n ≤ m ∧ asked c (upTo es n) <+: received (past (evOf es) c m) := by
  obtain ⟨m1, h1, h2⟩ := w.all_read h hr n
  obtain ⟨m, r, h3, h4⟩ := w.reads h hr m1
  refine ⟨m, by omega, ?_⟩
  obtain ⟨q, hq⟩ := h.conv c (m + 1)
  have hstop : (⟨.isStopping, true⟩ : REv) ∉ past (evOf es) c (m + 1) := by rw [past_upTo]; exact (h.run (m + 1)).never_stopping c
  rw [recv_kept hq hstop (past_snoc h4)]
  have ha := (h.run m).asked c
  rw [← past_upTo] at ha
  obtain ⟨l, hl⟩ := upTo_le (es := es) (show n ≤ m by omega)
  rw [hl, asked_append] at ha
  have ha : asked c (upTo es n) ++ asked c l = readIn (past (evOf es) c m) ++ ((ns m).links c).up := by simpa [Net.new] using ha
  refine List.prefix_of_prefix_length_le ⟨_, ha⟩ (List.prefix_append ..) ?_
  obtain ⟨l', hl'⟩ := past_prefix (es := evOf es) (c := c) h3
  rw [hl', readIn_append, List.length_append]
  omega

/-- What the client has received and what waits for it is all that was written. -/
theorem Working.written (h : NetEndless sv clock ns es F) {c : Nat} (w : Working ns es c) (n : Nat) :
    sent (past (evOf es) c n) = got c (upTo es n) ++ ((ns n).links c).down := by
  have hf := (h.run n).flow c (l := []) (g := []) (.whole (by intro b hb; cases hb))
  rw [List.nil_append, List.nil_append, ← past_upTo] at hf
  generalize got c (upTo es n) ++ ((ns n).links c).down = x, ((ns n).links c).broken = y at hf
  cases hf with
  | whole => rfl
  | @broken a t b _ _ hl => exact absurd (by rw [hl]; simp) (w.allSent n b)

/-- All that the mock has written is received. -/
theorem Working.all_received (h : NetEndless sv clock ns es F) {c : Nat} (w : Working ns es c) (n : Nat) :
    ∃ m, n ≤ m ∧ sent (past (evOf es) c n) <+: got c (upTo es m) := by
  have key : ∀ d k, n ≤ k → (sent (past (evOf es) c n)).length ≤ (got c (upTo es k)).length + d → ∃ m, n ≤ m ∧ (sent (past (evOf es) c n)).length ≤ (got c (upTo es m)).length := by
    intro d
    induction d with
    | zero => intro k h1 h2; exact ⟨k, h1, h2⟩
    | succ d ih =>
      intro k h1 h2
      by_cases h3 : (sent (past (evOf es) c n)).length ≤ (got c (upTo es k)).length
      · exact ⟨k, h1, h3⟩
      · obtain ⟨l, hl⟩ := past_prefix (es := evOf es) (c := c) h1
        obtain ⟨m, b, m1, m2, m3⟩ := w.receives k (fun e => by
          have := congrArg List.length (w.written h k)
          rw [e, hl, sent_append] at this
          simp at this
          omega)
        refine ih (m + 1) (by omega) ?_
        obtain ⟨l', hl'⟩ := upTo_le (es := es) m1
        have := List.length_pos_iff.2 m2
        rw [upTo_succ, got_append, hl', got_append, m3]
        simp only [List.length_append, got, if_true, List.append_nil]
        omega
  obtain ⟨m, h1, h2⟩ := key _ n (Nat.le_refl n) (Nat.le_add_left ..)
  refine ⟨m, h1, ?_⟩
  obtain ⟨l, hl⟩ := past_prefix (es := evOf es) (c := c) h1
  have h3 := w.written h m
  rw [hl, sent_append] at h3
  exact List.prefix_of_prefix_length_le ⟨_, h3⟩ (List.prefix_append ..) h2

/-- All responses that are begun are written later. -/
theorem Working.smallReplies (h : NetEndless sv clock ns es F) {c : Nat} (w : Working ns es c) (hr : RoomyOn (sysOf ns) (evOf es) c) (hs : BelowLimit es c) (n : Nat) (hF : F (.conn c) := by first | exact trivial | assumption) :
    SmallReplies sv (past (evOf es) c n) := by
  intro l1 m l2 l3 corr payload e hl2 ho
  have hi : (served (past (evOf es) c n))[(served l1).length]? = some m := by
    have : ∀ (a b : List REv), served (a ++ ⟨.reqBegin m, ()⟩ :: b) = served a ++ m :: served b := by
      intro a b
      induction a with
      | nil => rfl
      | cons x a ih =>
        obtain ⟨y, r⟩ := x
        cases y <;> first | exact ih | exact congrArg (_ :: ·) ih
    rw [e, this, List.getElem?_append_right (Nat.le_refl _), Nat.sub_self]
    rfl
  obtain ⟨a, a1, a2, a3⟩ := taken_at n hi
  obtain ⟨b, b1, b2, _⟩ := h.endless.lays_down hr a3
  have cut : ∀ N, a + 1 ≤ N → past (evOf es) c N = past (evOf es) c a ++ ⟨.reqBegin m, ()⟩ :: actsOf c (evs (evOf es) (a + 1) (N - (a + 1))) := by
    intro N hN
    have hN' : N = a + 1 + (N - (a + 1)) := by omega
    unfold past
    conv => lhs; rw [hN', evs_add, evs_succ, actsOf_append, actsOf_append, Nat.zero_add, Nat.zero_add, a3, actsOf_self]
    simp
  obtain ⟨N, N1, N2⟩ : ∃ N, n ≤ N ∧ b + 1 ≤ N := ⟨max n (b + 1), Nat.le_max_left .., Nat.le_max_right ..⟩
  obtain ⟨q, hq⟩ := h.conv c N
  obtain ⟨ext, hext⟩ := past_prefix (es := evOf es) (c := c) N1
  have c1 := cut N (by omega)
  have c2 := cut n (by omega)
  rw [e] at c2
  obtain ⟨d1, _, d2⟩ := same_begin c2 a2.symm
  have e' : past (evOf es) c N = l1 ++ ⟨.reqBegin m, ()⟩ :: (l2 ++ (l3 ++ ext)) := by rw [hext, e]; simp
  have hend : (⟨.reqEnd, ()⟩ : REv) ∈ l2 ++ (l3 ++ ext) := by
    have c3 := c1
    rw [e'] at c3
    obtain ⟨_, _, c4⟩ := same_begin c3 a2.symm
    rw [c4]
    have : evs (evOf es) (a + 1) (N - (a + 1)) = evs (evOf es) (a + 1) (b - (a + 1)) ++ evs (evOf es) b 1 ++ evs (evOf es) (b + 1) (N - (b + 1)) := by
      have x1 := evs_add (evOf es) (a + 1) (b - (a + 1)) 1
      have x2 := evs_add (evOf es) (a + 1) (b - (a + 1) + 1) (N - (b + 1))
      rw [show b - (a + 1) + 1 + (N - (b + 1)) = N - (a + 1) by omega, show a + 1 + (b - (a + 1) + 1) = b + 1 by omega, x1, show a + 1 + (b - (a + 1)) = b by omega] at x2
      exact x2
    rw [this, actsOf_append, actsOf_append, show evs (evOf es) b 1 = [evOf es b] by simp [evs], b2, actsOf_self]
    simp
  obtain ⟨d, t, v, h1, h2⟩ := begin_ends hq e' hend
  obtain ⟨z, rfl, h3⟩ := split_after h1 (fun hm => by cases hl2 _ hm)
  have h4 := own_same ho h2
  have hz : AllSent z := fun b hb => w.allSent N b (by rw [e', h3]; simp [hb])
  rcases send_own h4 hz with ⟨⟨x1, x2, _⟩, _⟩ | ⟨_, rfl⟩
  · cases v
    · exact absurd rfl x2
    · exact absurd rfl x1
  · exact small_past hs N payload true (by rw [e', h3]; simp)

/-- Whatever message the client has sent as its `i`-th, it receives an `i`-th response. -/
theorem Working.replied (h : NetEndless sv clock ns es F) {c : Nat} (w : Working ns es c) (hr : RoomyOn (sysOf ns) (evOf es) c) (hs : BelowLimit es c) {n i : Nat} {msg : Bytes}
    (hm : (frames (asked c (upTo es n)))[i]? = some msg) (hF : F (.conn c) := by first | exact trivial | assumption) : ∃ m r, n ≤ m ∧ (frames (got c (upTo es m)))[i]? = some r := by
  obtain ⟨m1, a1, a2⟩ := w.all_arrives h hr n
  obtain ⟨m2, b1, ⟨t, b2⟩, _, _, b3⟩ := C70_partial h.endless hr m1
  obtain ⟨rs, b4, b5⟩ := b3 (w.allSent m2) (small_past hs m2)
  obtain ⟨m3, c1, ⟨x, c2⟩⟩ := w.all_received h m2
  have hi := (List.getElem?_eq_some_iff.1 hm).1
  have l1 : (frames (asked c (upTo es n))).length ≤ (frames (received (past (evOf es) c m1))).length := by
    obtain ⟨y, hy⟩ := a2
    rw [← hy]
    exact (frames_append _ _).length_le
  have l2 := congrArg List.length b2
  rw [List.length_append] at l2
  have l3 := b5.length_eq
  have l4 : rs.length ≤ (frames (got c (upTo es m3))).length := by
    rw [← c2, C13_split b4, List.length_append]
    omega
  exact ⟨m3, _, by omega, List.getElem?_eq_getElem (by omega)⟩

/-- **C108**: whatever message a client has sent as its `i`-th, it receives its `i`-th response, and that answers this message: the message is accepted as a request (otherwise the process
would have come to its end), and the response comes from an exchange that began after the client had sent all of it. -/
theorem C108 (h : NetEndless sv clock ns es F) {c : Nat} (w : Working ns es c) (hr : RoomyOn (sysOf ns) (evOf es) c) (hs : BelowLimit es c) {n i : Nat} {msg : Bytes}
    (hm : (frames (asked c (upTo es n)))[i]? = some msg) (hF : F (.conn c) := by first | exact trivial | assumption) :
    ∃ m r req corr client t1 s1 te s2, n ≤ m ∧ (frames (got c (upTo es m)))[i]? = some r ∧ Accepted req corr client msg ∧ FitsBuffer req corr client ∧
      Exchange sv clock c req corr t1 s1 te s2 ∧ Framed (sent (actsOf c te)) [r] := by
  obtain ⟨m, r, h1, h2⟩ := w.replied h hr hs hm
  have hsm := w.smallReplies h hr hs m
  rw [past_upTo] at hsm
  obtain ⟨u1, msg', u2, payload, u3, n1, n2, req, corr, client, e1, e2, e3, e4, e5, e6, e7, e8, e9, _⟩ := C106 (h.run m) c hsm h2
  have : msg' = msg := by
    obtain ⟨l, hl⟩ := upTo_le (es := es) h1
    have x1 : (frames (asked c (upTo es m)))[i]? = some msg := by
      obtain ⟨x, hx⟩ := frames_append (asked c (upTo es n)) (asked c l)
      rw [hl, asked_append, ← hx, List.getElem?_append_left (List.getElem?_eq_some_iff.1 hm).1, hm]
    have x2 : (frames (asked c (upTo es m)))[i]? = some msg' := by
      rw [e1, List.append_assoc, asked_append]
      obtain ⟨x, hx⟩ := frames_append (asked c u1) (asked c ([.mock (.conn c (.reqBegin msg') ())] ++ ((u2 ++ [.mock (.conn c (.write payload) true)]) ++ u3)))
      rw [← hx, List.getElem?_append_left (List.getElem?_eq_some_iff.1 e5).1, e5]
    rw [x1] at x2
    exact (Option.some.inj x2).symm
  subst this
  exact ⟨m, r, req, corr, client, _, _, _, _, h1, h2, e6, e7, e8, e9⟩

/-- **C108**, posts: once a call of `SimplePost` or `ExtendedPost` has returned, at step `p`, every client that sends a Fetch request (one partition per topic) from an offset up to that
of the record receives a response with the record at its place. -/
theorem C108_posts (h : NetEndless sv clock ns es F) {sa : Sys} {a p : Nat} {call : PostCall} {tc : List SEv} (hcall : CallRun sa a call.call tc (ns p).sys) (hF : ∀ c, Working ns es c → F (.conn c) := by first | exact fun _ _ => trivial | assumption) :
    ∃ (pos : Nat) (rec : Record), call.Matches sa.clock (ns p).sys.clock rec ∧ ((sa.view 0).log call.topic (BitVec.ofInt 32 call.partition)).length ≤ pos ∧
      ∀ (c n j : Nat) (msg : Bytes) (q : FetchRequest) (corr : I32) (client : Option Bytes), Working ns es c → RoomyOn (sysOf ns) (evOf es) c →
        BelowLimit es c → (∀ n (i : Nat) r, (frames (got c (upTo es n)))[i]? = some r → r.length + 4 < 2 ^ 31) → (∀ n t p, ∀ x ∈ ((ns n).sys.view 0).log t p, wireSize x < 2 ^ 31) →
        (frames (asked c (upTo es p))).length ≤ j → (frames (asked c (upTo es n)))[j]? = some msg → Accepted (.fetch q) corr client msg → FitsBuffer (.fetch q) corr client →
        (∀ t ∈ q.topics, ∃ p, t.partitions = [p]) →
        ∃ m r b x, (frames (got c (upTo es m)))[j]? = some r ∧ Framed b [r] ∧ Client.response Client.fetch b = some ((corr, 0, x), []) ∧
          List.Forall₂ (fun (qt : FetchTopic) (rt : Bytes × List Client.FetchedPartition) => rt.1 = qt.topic ∧
            List.Forall₂ (fun (par : FetchPartition) (fp : Client.FetchedPartition) => fp.partition = par.partition ∧
              (qt.topic = call.topic → par.partition = BitVec.ofInt 32 call.partition → 0 ≤ par.fetchOffset.toInt → par.fetchOffset.toInt ≤ pos →
                ∃ m, fp.messages[pos - par.fetchOffset.toInt.toNat]? = some m ∧ m.offset = BitVec.ofNat 64 pos ∧ m.timestamp = rec.timestamp ∧
                  m.key = call.key ∧ m.value = call.value))
              qt.partitions rt.2) q.topics x := by
  obtain ⟨pos, rec, p1, p2, p3⟩ := C106_posts (h.run p) hcall
  refine ⟨pos, rec, p1, p2, ?_⟩
  intro c n j msg q corr client w hr hs hlen hroom hlate hm hacc hfit single
  have hFc := hF c w
  obtain ⟨N, N1, N2⟩ : ∃ N, n ≤ N ∧ p ≤ N := ⟨max n p, Nat.le_max_left .., Nat.le_max_right ..⟩
  have more : ∀ N, n ≤ N → (frames (asked c (upTo es N)))[j]? = some msg := by
    intro N hN
    obtain ⟨l, hl⟩ := upTo_le (es := es) hN
    obtain ⟨x, hx⟩ := frames_append (asked c (upTo es n)) (asked c l)
    rw [hl, asked_append, ← hx, List.getElem?_append_left (List.getElem?_eq_some_iff.1 hm).1, hm]
  obtain ⟨m, r, m1, m2⟩ := w.replied h hr hs (more N N1)
  obtain ⟨tb, e, hrun⟩ := h.run_from (show p ≤ m by omega)
  have hsm := w.smallReplies h hr hs m
  rw [past_upTo, e] at hsm
  obtain ⟨b, x, h1, h2, h3⟩ := p3 tb (ns m) c j r msg q corr client hrun hsm hlate (by rw [← e]; exact more m (by omega)) hacc hfit single (by rw [← e]; exact m2)
    (hlen m j r m2) (hroom m)
  exact ⟨m, r, b, x, m2, h1, h2, h3⟩

end KM.Props
