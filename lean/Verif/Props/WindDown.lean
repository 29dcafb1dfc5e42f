import Verif.Halts
import Verif.Props.Conn
import Verif.Props.Fetch
/-
Property C49: what a connection still does once the server has been told to finish.
-/
namespace KM.Props
open KM Spec

/-! ### Reads -/

/-- The number of reads among the actions. -/
def readCount (l : List REv) : Nat := l.countP fun e => match e.act with | .recv => true | _ => false

/-- Before every read, the server has found that it is not told to finish. -/
theorem recv_after_check {sv : Server} {inb : Bytes} {l : List REv} {q : Prog Unit} (h : Conv sv inb l q) {l1 l2 : List REv} {r : RecvResult}
    (hl : l = l1 ++ ⟨.recv, r⟩ :: l2) : ∃ l0, l1 = l0 ++ [⟨.isDone, false⟩] := by
  have hne : ∀ {l : List REv}, (∀ e ∈ l, Inner e.act) → (⟨.recv, r⟩ : REv) ∉ l := fun h he => h _ he
  induction h generalizing l1 with
  | head => cases l1 <;> cases hl
  | part hn h _ =>
    rcases h with rfl | ⟨d, rfl⟩ | rfl | ⟨r, rfl⟩
    · cases l1 <;> cases hl
    · rcases l1 with _ | ⟨_, _ | _⟩ <;> cases hl
    · rcases l1 with _ | ⟨_, _ | ⟨_, _ | _⟩⟩ <;> cases hl
    · rcases l1 with _ | ⟨_, _ | ⟨_, _ | _⟩⟩ <;> cases hl
      exact ⟨[], rfl⟩
  | @timeout inb l q hn h ih =>
    rcases l1 with _ | ⟨_, _ | ⟨_, l1⟩⟩
    · cases hl
    · cases hl; exact ⟨[], rfl⟩
    · simp only [List.cons_append, List.cons.injEq] at hl
      obtain ⟨rfl, rfl, hl⟩ := hl
      obtain ⟨l0, rfl⟩ := ih hl
      exact ⟨_ :: _ :: l0, rfl⟩
  | @ignored inb b l q hn h ih =>
    rcases l1 with _ | ⟨_, _ | ⟨_, _ | ⟨_, l1⟩⟩⟩
    · cases hl
    · cases hl; exact ⟨[], rfl⟩
    · cases hl
    · simp only [List.cons_append, List.cons.injEq] at hl
      obtain ⟨rfl, rfl, rfl, hl⟩ := hl
      obtain ⟨l0, rfl⟩ := ih hl
      exact ⟨_ :: _ :: _ :: l0, rfl⟩
  | @read inb b l q hn h ih =>
    rcases l1 with _ | ⟨_, _ | ⟨_, _ | ⟨_, l1⟩⟩⟩
    · cases hl
    · cases hl; exact ⟨[], rfl⟩
    · cases hl
    · simp only [List.cons_append, List.cons.injEq] at hl
      obtain ⟨rfl, rfl, rfl, hl⟩ := hl
      obtain ⟨l0, rfl⟩ := ih hl
      exact ⟨_ :: _ :: _ :: l0, rfl⟩
  | huge => cases l1 <;> cases hl
  | begin => cases l1 <;> cases hl
  | @serving inb m' l x q hm hd _ =>
    cases l1 with
    | nil => cases hl
    | cons x l1 =>
      simp only [List.cons_append, List.cons.injEq] at hl
      exact absurd (by rw [hl.2]; simp) (hne (dispatcher_inner hd))
  | @rejected inb m' l hm hd =>
    cases l1 with
    | nil => simp at hl
    | cons x l1 =>
      simp only [List.cons_append, List.cons.injEq] at hl
      obtain ⟨l1', rfl, e⟩ := split_after hl.2 (hne (dispatcher_inner hd))
      rcases l1' with _ | ⟨_, _ | _⟩ <;> cases e
  | @served inb m' l l2' q hm hd h ih =>
    cases l1 with
    | nil => simp at hl
    | cons x l1 =>
      simp only [List.cons_append, List.cons.injEq] at hl
      obtain ⟨rfl, hl⟩ := hl
      obtain ⟨l1', rfl, e⟩ := split_after hl (hne (dispatcher_inner hd))
      cases l1' with
      | nil => cases e
      | cons y l1' =>
        simp only [List.cons_append, List.cons.injEq] at e
        obtain ⟨rfl, e⟩ := e
        obtain ⟨l0, rfl⟩ := ih e
        exact ⟨⟨.reqBegin m', ()⟩ :: (l ++ ⟨.reqEnd, ()⟩ :: l0), by simp⟩

/-- How a connection goroutine leaves its loop. -/
theorem conv_ends {sv : Server} {inb : Bytes} {l : List REv} {q : Prog Unit} (h : Conv sv inb l q) (hq : q = .ret ()) :
    ∃ l0, l = l0 ++ [⟨.isDone, true⟩, ⟨.close, ()⟩] ∨ l = l0 ++ [⟨.isDone, false⟩, ⟨.recv, .closed⟩] := by
  induction h with
  | head => cases hq
  | part hn h h2 => exact ⟨[], h2 hq⟩
  | timeout hn h ih =>
    obtain ⟨l0, rfl | rfl⟩ := ih hq
    · exact ⟨_ :: _ :: l0, .inl rfl⟩
    · exact ⟨_ :: _ :: l0, .inr rfl⟩
  | ignored hn h ih =>
    obtain ⟨l0, rfl | rfl⟩ := ih hq
    · exact ⟨_ :: _ :: _ :: l0, .inl rfl⟩
    · exact ⟨_ :: _ :: _ :: l0, .inr rfl⟩
  | read hn h ih =>
    obtain ⟨l0, rfl | rfl⟩ := ih hq
    · exact ⟨_ :: _ :: _ :: l0, .inl rfl⟩
    · exact ⟨_ :: _ :: _ :: l0, .inr rfl⟩
  | huge => cases hq
  | begin _ h => exact absurd hq h
  | serving _ _ h => exact absurd hq h
  | rejected => cases hq
  | @served inb m l l2 q hm hd h ih => obtain ⟨l0, rfl | rfl⟩ := ih hq <;> exact ⟨⟨.reqBegin m, ()⟩ :: (l ++ ⟨.reqEnd, ()⟩ :: l0), by simp⟩

/-- Once cancelled, a goroutine finds that it is. -/
theorem done_after_cancel {α : Type} {w w' : World} {p p' : Prog α} {tr : List Ev} (h : Exec w p tr w' p') (hc : w.cancelled = true) {d : Bool}
    (hd : (⟨.isDone, d⟩ : REv) ∈ own tr) : d = true := by
  induction h with
  | refl => cases hd
  | env a r hst _ ih => exact ih (step_cancelled hst hc) hd
  | mine a k r hst _ ih =>
    rw [own_mine] at hd
    rcases List.mem_cons.1 hd with e | hd
    · cases e; exact hst.2.trans hc
    · exact ih (step_cancelled hst hc) hd
  | unroll _ ih => exact ih hc hd

theorem read_size {α : Type} {w w' : World} {p p' : Prog α} {tr : List Ev} (h : Exec w p tr w' p') {b : Bytes}
    (hb : (⟨.recv, .data b⟩ : REv) ∈ own tr) : b.length ≤ 8192 := by
  induction h with
  | refl => cases hb
  | env a r hst _ ih => exact ih hb
  | mine a k r hst _ ih =>
    rw [own_mine] at hb
    rcases List.mem_cons.1 hb with e | hb
    · cases e; exact (hst.2 b rfl).2
    · exact ih hb
  | unroll _ ih => exact ih hb

/-! ### Bytes taken after a moment -/

theorem received_none {l : List REv} (h : ∀ r, (⟨.recv, r⟩ : REv) ∉ l) : received l = [] := by
  induction l with
  | nil => rfl
  | cons e l ih =>
    have ih := ih fun r hr => h r (List.mem_cons_of_mem _ hr)
    obtain ⟨a, r⟩ := e
    cases a <;> first | exact ih | exact absurd (List.mem_cons_self ..) (h r)

theorem received_more {l1 l2 : List REv} (h : ∀ r, (⟨.recv, r⟩ : REv) ∉ l2) :
    ∃ b, received (l1 ++ l2) = received l1 ++ b ∧ (b = [] ∨ ⟨.recv, .data b⟩ ∈ l1) := by
  fun_induction received l1 with
  | case1 b l ih =>
    obtain ⟨b', e, hb⟩ := ih
    refine ⟨b', ?_, hb.imp id fun hb => List.mem_cons_of_mem _ (List.mem_cons_of_mem _ hb)⟩
    show b ++ received (l ++ l2) = _
    rw [e, List.append_assoc]
  | case2 e l hn ih =>
    obtain ⟨b', e1, hb⟩ := ih
    by_cases hx : ∃ b, e = ⟨.recv, .data b⟩ ∧ l = [] ∧ ∃ l2', l2 = ⟨.isStopping, false⟩ :: l2'
    · obtain ⟨b, rfl, rfl, l2', rfl⟩ := hx
      refine ⟨b, ?_, .inr (List.mem_cons_self ..)⟩
      show b ++ received l2' = _
      rw [received_none fun r hr => h r (List.mem_cons_of_mem _ hr)]
      simp [received]
    · refine ⟨b', ?_, hb.imp id fun hb => List.mem_cons_of_mem _ hb⟩
      rw [← e1, List.cons_append]
      rw [received.eq_2]
      rintro b l' rfl e2
      cases l with
      | nil => exact hx ⟨b, rfl, rfl, l', e2⟩
      | cons x l =>
        simp only [List.cons_append, List.cons.injEq] at e2
        obtain ⟨rfl, _⟩ := e2
        exact hn b l rfl rfl
  | case3 => exact ⟨[], by rw [List.nil_append, received_none h]; rfl, .inl rfl⟩

theorem received_snoc (l1 : List REv) (r : RecvResult) : received (l1 ++ [⟨.recv, r⟩]) = received l1 := by
  fun_induction received l1 with
  | case1 b l ih =>
    show b ++ received (l ++ _) = _
    rw [ih]
  | case2 e l hn ih =>
    rw [← ih, List.cons_append, received.eq_2]
    rintro b l' rfl e2
    cases l with
    | nil => cases e2
    | cons x l =>
      simp only [List.cons_append, List.cons.injEq] at e2
      obtain ⟨rfl, _⟩ := e2
      exact hn b l rfl rfl
  | case3 => cases r <;> rfl

/-! ### C49 -/

theorem recv_first {sv : Server} {w wc w' : World} {t1 t2 : List Ev} {p1 p2 : Prog Unit} (h1 : Exec w (handle sv) t1 wc p1) (hc : wc.cancelled = true)
    (h2 : Exec wc p1 t2 w' p2) {l1 l2 : List REv} {r : RecvResult} (hl : own t2 = l1 ++ ⟨.recv, r⟩ :: l2) : l1 = [] := by
  have hcv := handle_conv (h1.trans h2).own
  rw [own_append] at hcv
  obtain ⟨l0, e⟩ := recv_after_check hcv (l1 := own t1 ++ l1) (l2 := l2) (r := r) (by rw [hl, List.append_assoc])
  rcases List.eq_nil_or_concat l1 with h | ⟨l1', x, rfl⟩
  · exact h
  · exfalso
    rw [List.concat_eq_append, ← List.append_assoc] at e
    have hx : x = ⟨.isDone, false⟩ := by
      have := List.append_inj_right' e rfl
      simpa using this
    subst hx
    exact Bool.false_ne_true (done_after_cancel h2 hc (by rw [hl]; simp))

/-- **C49**, at most one more read: once the server is told to finish (at the world `wc` of the run), the connection reads at most once more,
and if it does, then with its next action. -/
theorem C49_one_read {sv : Server} {w wc w' : World} {t1 t2 : List Ev} {p1 p2 : Prog Unit} (h1 : Exec w (handle sv) t1 wc p1)
    (hc : wc.cancelled = true) (h2 : Exec wc p1 t2 w' p2) :
    readCount (own t2) ≤ 1 ∧ ∀ l1 l2 r, own t2 = l1 ++ ⟨.recv, r⟩ :: l2 → l1 = [] := by
  have hf : ∀ l1 l2 r, own t2 = l1 ++ ⟨.recv, r⟩ :: l2 → l1 = [] := fun l1 l2 r => recv_first h1 hc h2
  refine ⟨?_, hf⟩
  have hz : ∀ l : List REv, (∀ r, (⟨.recv, r⟩ : REv) ∉ l) → readCount l = 0 := by
    intro l hl
    refine List.countP_eq_zero.2 ?_
    rintro ⟨a, r⟩ he
    cases a <;> first | exact Bool.false_ne_true | exact absurd he (hl r)
  cases hl : own t2 with
  | nil => exact Nat.zero_le _
  | cons x l =>
    have : readCount l = 0 := by
      refine hz l fun r hr => ?_
      obtain ⟨a, b, rfl⟩ := List.append_of_mem hr
      have := hf (x :: a) b r hl
      cases this
    show List.countP _ _ ≤ 1
    rw [List.countP_cons]
    show readCount l + _ ≤ 1
    rw [this, Nat.zero_add]
    split <;> decide

/-- **C49**, only what is buffered: all requests processed, before and after the server is told to finish, are messages of the bytes taken
before, followed by the bytes `b` of at most one read. -/
theorem C49_only_buffered {sv : Server} {w wc w' : World} {t1 t2 : List Ev} {p1 p2 : Prog Unit} (h1 : Exec w (handle sv) t1 wc p1)
    (hc : wc.cancelled = true) (h2 : Exec wc p1 t2 w' p2) :
    ∃ b : Bytes, b.length ≤ 8192 ∧ served (own t1 ++ own t2) <+: frames (received (own t1) ++ b) := by
  have hf := C11_framing (h1.trans h2)
  rw [own_append] at hf
  have hb : ∀ b, (⟨.recv, .data b⟩ : REv) ∈ own t1 ++ own t2 → b.length ≤ 8192 := by
    intro b hb
    rw [← own_append] at hb
    exact read_size (h1.trans h2) hb
  by_cases hr : ∃ r, (⟨.recv, r⟩ : REv) ∈ own t2
  · obtain ⟨r, hr⟩ := hr
    obtain ⟨a, l, e⟩ := List.append_of_mem hr
    have := recv_first h1 hc h2 e
    subst this
    rw [List.nil_append] at e
    have hl : ∀ r', (⟨.recv, r'⟩ : REv) ∉ l := by
      intro r' hr'
      obtain ⟨a, b, rfl⟩ := List.append_of_mem hr'
      have := recv_first h1 hc h2 (l1 := ⟨.recv, r⟩ :: a) e
      cases this
    obtain ⟨b, e1, e2⟩ := received_more (l1 := own t1 ++ [⟨.recv, r⟩]) hl
    rw [List.append_assoc, List.singleton_append, ← e, received_snoc] at e1
    rw [e1] at hf
    refine ⟨b, ?_, hf⟩
    rcases e2 with rfl | e2
    · exact Nat.zero_le _
    · refine hb b ?_
      rw [e]
      rcases List.mem_append.1 e2 with e2 | e2
      · exact List.mem_append_left _ e2
      · exact List.mem_append_right _ (by rw [List.mem_singleton.1 e2]; exact List.mem_cons_self ..)
  · obtain ⟨b, e1, e2⟩ := received_more (l1 := own t1) (l2 := own t2) fun r h => hr ⟨r, h⟩
    rw [e1] at hf
    refine ⟨b, ?_, hf⟩
    rcases e2 with rfl | e2
    · exact Nat.zero_le _
    · exact hb b (List.mem_append_left _ e2)

/-- **C49**, then closes: a connection goroutine that has left its loop has closed the connection after finding that it is to finish, or
has just been told by a read that the connection is gone. -/
theorem C49_closes {sv : Server} {w w' : World} {tr : List Ev} (h : Exec w (handle sv) tr w' (.ret ())) :
    ∃ l0, own tr = l0 ++ [⟨.isDone, true⟩, ⟨.close, ()⟩] ∨ own tr = l0 ++ [⟨.isDone, false⟩, ⟨.recv, .closed⟩] :=
  conv_ends (handle_conv h.own) rfl

/-- **C49**, new connections: one that begins after the server was told to finish is closed without a read and without a request processed. -/
theorem C49_new_connection {sv : Server} {w w' : World} {tr : List Ev} {p' : Prog Unit} (h : Exec w (handle sv) tr w' p') (hc : w.cancelled = true) :
    own tr <+: [⟨.isDone, true⟩, ⟨.close, ()⟩] ∧ (p' = .ret () → own tr = [⟨.isDone, true⟩, ⟨.close, ()⟩]) ∧ p' ≠ .panic := by
  have ho := h.own
  have hd : ∀ d, (⟨.isDone, d⟩ : REv) ∈ own tr → d = true := fun d => done_after_cancel h hc
  generalize own tr = l at ho hd
  rcases own_loop_inv ho with ⟨rfl, rfl⟩ | ho
  · exact ⟨List.nil_prefix, (fun h => by cases h), (fun h => by cases h)⟩
  · rcases own_act_inv ho with ⟨rfl, rfl⟩ | ⟨d, l1, rfl, h1⟩
    · exact ⟨List.nil_prefix, (fun h => by cases h), (fun h => by cases h)⟩
    · have : d = true := hd d (List.mem_cons_self ..)
      subst this
      rcases own_act_inv h1 with ⟨rfl, rfl⟩ | ⟨u, l2, rfl, h2⟩
      · exact ⟨(List.prefix_cons_inj _).2 List.nil_prefix, (fun h => by cases h), (fun h => by cases h)⟩
      · obtain ⟨rfl, rfl⟩ := own_ret_inv h2
        exact ⟨List.prefix_refl _, fun _ => rfl, fun h => by cases h⟩

/-- The connection acts for ever: `t 0, t 1, …` are consecutive parts of its run, each with an action of its own. -/
structure Endless (w : Nat → World) (p : Nat → Prog Unit) (t : Nat → List Ev) : Prop where
  runs (n : Nat) : Exec (w n) (p n) (t n) (w (n + 1)) (p (n + 1))
  acts (n : Nat) : own (t n) ≠ []

theorem cancelled_mono {α : Type} {w w' : World} {p p' : Prog α} {tr : List Ev} (h : Exec w p tr w' p') (hc : w.cancelled = true) : w'.cancelled = true := by
  induction h with
  | refl => exact hc
  | env a r hst _ ih => exact ih (step_cancelled hst hc)
  | mine a k r hst _ ih => exact ih (step_cancelled hst hc)
  | unroll _ ih => exact ih hc

theorem done_resp {α : Type} {w w' : World} {p p' : Prog α} {tr : List Ev} (h : Exec w p tr w' p') (hc : w.cancelled = true)
    (hq : ∀ t q o rec, (⟨.fetchRecord t q o, some (some rec)⟩ : REv) ∉ own tr) : ∀ e ∈ own tr, doneResp e.act e.resp := by
  rintro ⟨a, r⟩ he
  cases a <;> first
    | exact done_after_cancel h hc he
    | (rintro rec rfl; exact hq _ _ _ _ he)
    | trivial

/-- **C49**, the end: once the server is told to finish, the connection comes to an end, unless a Fetch finds records again and again.
Missing for the full statement: exactly that case, in which it may go on for ever (`C49_false`). -/
theorem C49_ends_partial {sv : Server} {w0 : World} {t0 : List Ev} {w : Nat → World} {p : Nat → Prog Unit} {t : Nat → List Ev}
    (h0 : Exec w0 (handle sv) t0 (w 0) (p 0)) (hc : (w 0).cancelled = true) (h : Endless w p t) :
    ∀ N, ∃ n ≥ N, ∃ topic part off rec, (⟨.fetchRecord topic part off, some (some rec)⟩ : REv) ∈ own (t n) := by
  intro N
  apply Classical.byContradiction
  intro hno
  have hq : ∀ n, N ≤ n → ∀ t' q o rec, (⟨.fetchRecord t' q o, some (some rec)⟩ : REv) ∉ own (t n) :=
    fun n hn t' q o rec hm => hno ⟨n, hn, t', q, o, rec, hm⟩
  have hs : ∀ n, (p n).Stoppable doneResp ∧ (w n).cancelled = true := by
    intro n
    induction n with
    | zero => exact ⟨h0.stoppable (handle_stoppable sv), hc⟩
    | succ n ih => exact ⟨(h.runs n).stoppable ih.1, cancelled_mono (h.runs n) ih.2⟩
  refine (hs N).1.halts.finite (fun n => p (N + n)) (fun n => own (t (N + n))) rfl (fun n => ⟨(h.runs (N + n)).own, h.acts (N + n)⟩) ?_
  intro n e he
  exact done_resp (h.runs (N + n)) (hs (N + n)).2 (hq (N + n) (Nat.le_add_right ..)) e he

/-! ### The case that does not end -/

/-- A Fetch request (api 1 version 2, correlation id 7, client id "c") for the records of topic "t" partition 0 from offset 0, at most 10 bytes. -/
def fetchBytes : Bytes :=
  [0, 0, 0, 50, 0, 1, 0, 2, 0, 0, 0, 7, 0, 1, 99, 255, 255, 255, 255, 0, 0, 0, 100, 0, 0, 0, 1, 0, 0, 0, 1, 0, 1, 116, 0, 0, 0, 1,
   0, 0, 0, 0, 0, 0, 0, 0, 0, 0, 0, 0, 0, 0, 0, 10]

/-- The request arrives, one round of the polling loop is made, and the server is told to finish. -/
def spinRun := Prog.run ([.own, .own, .recv fetchBytes] ++ go 8 ++ [.env .cancel]) exFetchWorld (handle ⟨9092, []⟩)

/-- What is known of the partition in the request; the record found is too big for the limit. -/
def spinData : FetchData := ⟨some ([116], 0), 0, 10, newMessageSetV1 0⟩

set_option maxRecDepth 100000 in
theorem spinRun_loop : ∃ ex k, spinRun.2.2 = .loop (⟨[spinData], true⟩ : FetchSt) (fetchBody ex) k := ⟨_, _, rfl⟩

set_option maxRecDepth 100000 in
/-- C49 is false: told to finish while a Fetch is being processed whose next record exceeds the limit, the connection goes on for ever,
without an answer, without a read, and without closing. -/
theorem C49_false : ∃ (w0 : World) (t0 : List Ev) (w : Nat → World) (p : Nat → Prog Unit) (t : Nat → List Ev),
    Exec w0 (handle ⟨9092, []⟩) t0 (w 0) (p 0) ∧ (w 0).cancelled = true ∧ Endless w p t ∧
    ∀ n, ∀ e ∈ own (t n), ∃ topic part off, e.act = .fetchRecord topic part off := by
  obtain ⟨ex, k, hk⟩ := spinRun_loop
  refine ⟨exFetchWorld, spinRun.1, fun _ => spinRun.2.1, fun _ => spinRun.2.2,
    fun _ => [⟨true, .fetchRecord [116] 0 0, some (some ⟨0, 10, none, some [1], []⟩)⟩], Prog.run_sound _ _ _, by decide +kernel, ⟨fun _ => ?_, fun _ h => by cases h⟩, ?_⟩
  · rw [hk]
    exact .unroll (.mine _ _ _ ⟨_, rfl, rfl, rfl⟩ (.refl _ _))
  · intro n e he
    rw [List.mem_singleton.1 he]
    exact ⟨_, _, _, rfl⟩

/-! ### Examples: the hypotheses can be met -/

def Prog.finished : Prog Unit → Bool
  | .ret _ => true
  | _ => false

theorem finished_eq {p : Prog Unit} (h : Prog.finished p = true) : p = .ret () := by
  cases p <;> first | rfl | cases h

/-- Two Heartbeat requests are buffered when the server is told to finish, together with the start of a third; both are answered, and the
connection is closed. -/
example : ∃ (w wc w' : World) (t1 t2 : List Ev) (p1 : Prog Unit), Exec w (handle ⟨9092, []⟩) t1 wc p1 ∧ wc.cancelled = true ∧ Exec wc p1 t2 w' (.ret ()) ∧
    served (own t1) = [] ∧ served (own t2) = [heartbeatBytes.drop 4, heartbeatBytes.drop 4] ∧ readCount (own t2) = 0 := by
  refine ⟨_, _, _, _, _, _, Prog.run_sound ([.own, .own, .recv (heartbeatBytes ++ heartbeatBytes ++ [0, 0])] ++ go 1 ++ [.env .cancel]) (World.init 0) _, by decide +kernel,
    Prog.run_ret (sch := go 40) (finished_eq (by decide +kernel)), by decide +kernel, by decide +kernel, by decide +kernel⟩

/-- The server is told to finish right after the check; the read that follows brings a request, which is answered. -/
example : ∃ (w wc w' : World) (t1 t2 : List Ev) (p1 : Prog Unit), Exec w (handle ⟨9092, []⟩) t1 wc p1 ∧ wc.cancelled = true ∧ Exec wc p1 t2 w' (.ret ()) ∧
    readCount (own t2) = 1 ∧ served (own t2) = [heartbeatBytes.drop 4] := by
  refine ⟨_, _, _, _, _, _, Prog.run_sound [.own, .own, .env .cancel] (World.init 0) _, rfl,
    Prog.run_ret (sch := .recv heartbeatBytes :: go 40) (finished_eq (by decide +kernel)), by decide +kernel, by decide +kernel⟩

/-- A connection that begins after the server was told to finish. -/
example : ∃ (w w' : World) (tr : List Ev), w.cancelled = true ∧ Exec w (handle ⟨9092, []⟩) tr w' (.ret ()) :=
  ⟨{ World.init 0 with cancelled := true }, _, _, rfl, Prog.run_ret (sch := go 4) rfl⟩

end KM.Props
