import Verif.Props.Managed
import Verif.Props.Delivered
import Verif.Props.HangUp
import Verif.Props.Modest
/-
C118: a test that stops the mock when its clients have what they asked for comes to its end.
-/
namespace KM.Props
open KM KM.Spec

variable {sv : Server} {clock : Int} {ns : Nat → Net} {es : Nat → NEv}

/-! ### Modest data, and what is written -/

theorem send_writes {c : I32} {payload : Bytes} {l : List REv} {q : Prog DRes} (h : Own (send c payload) l q) {b : Bytes} {ok : Bool} (hb : (⟨.write b, ok⟩ : REv) ∈ l) :
    b = responseSize payload ∨ b = encodeInt32 c ∨ b = payload := by
  have hf : sendFailed.Only (fun a => ∀ b, a = .write b → b = responseSize payload ∨ b = encodeInt32 c ∨ b = payload) := ⟨nofun, fun _ => trivial⟩
  have ho : (send c payload).Only (fun a => ∀ b, a = .write b → b = responseSize payload ∨ b = encodeInt32 c ∨ b = payload) := by
    refine ⟨fun b e => by cases e; exact .inl rfl, fun ok1 => ?_⟩
    cases ok1
    · exact hf
    · refine ⟨fun b e => by cases e; exact .inr (.inl rfl), fun ok2 => ?_⟩
      cases ok2
      · exact hf
      · refine ⟨fun b e => by cases e; exact .inr (.inr rfl), fun ok3 => ?_⟩
        cases ok3
        · exact hf
        · trivial
  exact (h.only ho).2 _ hb b rfl

/-- Where no response is too large, nothing is written that is. -/
theorem small_of_replies {inb : Bytes} {l : List REv} {q : Prog Unit} (h : Conv sv inb l q) (hs : SmallReplies sv l) : Small l := by
  have disp : ∀ {m : Bytes} {l t : List REv} {x : Prog DRes}, Own (dispatcher sv ⟨m⟩ m.length) l x → SmallReplies sv (⟨.reqBegin m, ()⟩ :: (l ++ t)) → Small l := by
    intro m l t x hd hs b ok hb
    rcases dispatcher_answers hd with ⟨h1, _⟩ | ⟨l1, l2, c, payload, rfl, h1, _, h2, h3⟩
    · cases h1 _ hb
    · rcases List.mem_append.1 hb with hb | hb
      · cases h1 _ hb
      · have hz := hs [] m l1 (l2 ++ t) c payload (by simp) h1 h2
        rcases send_writes h3 hb with rfl | rfl | rfl
        · simp [responseSize, encodeInt32, putBE]
        · simp [encodeInt32, putBE]
        · exact hz
  have cons : ∀ {a : Act} {r : a.Resp} {l : List REv}, (∀ b, a ≠ .write b) → Small l → Small (⟨a, r⟩ :: l) := by
    intro a r l ha hl b ok hb
    rcases List.mem_cons.1 hb with e | hb
    · cases e; exact absurd rfl (ha b)
    · exact hl b ok hb
  have app : ∀ {a l : List REv}, Small a → Small l → Small (a ++ l) := by
    intro a l ha hl b ok hb
    rcases List.mem_append.1 hb with hb | hb
    · exact ha b ok hb
    · exact hl b ok hb
  have nil : Small [] := fun _ _ h => by cases h
  induction h with
  | head => exact nil
  | part _ hl => rcases hl with rfl | ⟨d, rfl⟩ | rfl | ⟨x, rfl⟩ <;> repeat (first | exact nil | refine cons (fun _ e => by cases e) ?_)
  | timeout _ _ ih => exact cons (fun _ e => by cases e) (cons (fun _ e => by cases e) (ih (SmallReplies.tail (a := [_, _]) hs)))
  | ignored _ _ ih => exact cons (fun _ e => by cases e) (cons (fun _ e => by cases e) (cons (fun _ e => by cases e) (ih (SmallReplies.tail (a := [_, _, _]) hs))))
  | read _ _ ih => exact cons (fun _ e => by cases e) (cons (fun _ e => by cases e) (cons (fun _ e => by cases e) (ih (SmallReplies.tail (a := [_, _, _]) hs))))
  | huge => exact nil
  | begin => exact nil
  | serving _ hd => exact cons (fun _ e => by cases e) (disp (t := []) hd (by simpa using hs))
  | rejected _ hd => exact cons (fun _ e => by cases e) (app (disp hd hs) (cons (fun _ e => by cases e) nil))
  | @served inb m l l2 q _ hd _ ih =>
    exact cons (fun _ e => by cases e) (app (disp hd hs) (cons (fun _ e => by cases e) (ih (SmallReplies.tail (a := ⟨.reqBegin m, ()⟩ :: (l ++ [⟨.reqEnd, ()⟩])) (by simpa using hs)))))

theorem modest_below {F : Goroutine → Prop} (h : NetEndless sv clock ns es F) (hm : ∀ n, Modest sv ((ns n).sys.view 0)) (c : Nat) : BelowLimit es c := by
  intro n b ok e
  obtain ⟨q, hq⟩ := h.conv c (n + 1)
  have hs := C114_small (h.run (n + 1)) (hm _) c
  rw [← past_upTo] at hs
  exact small_of_replies hq hs b ok (by rw [past_snoc e]; simp)

/-! ### Tests -/

/-- How many responses the client of connection `c` has received before step `n`. -/
def responses (es : Nat → NEv) (c n : Nat) : Nat := (frames (got c (upTo es n))).length

/-- The calls that tell connections to finish. -/
def telling : List Call := [.finishRequests, .requestStop, .waitForTermination, .restart]

/-- A test, written in the ordinary way. One goroutine, `i`, makes the calls that start and stop the mock, and makes those that stop it only when each of the clients `cs` has received the responses it wants, `k c` of
them; then it makes them. Client `c` connects at some time, sends at least `k c` messages, and does not hang up before it has `k c` responses. The network delivers what is sent until then. Nobody cancels the context of
the test. Beside that goroutines post, create topics and set offsets, and other clients come and go, as they like. -/
structure Test (sv : Server) (clock : Int) (i : Nat) (cs : List Nat) (k : Nat → Nat) (ns : Nat → Net) (es : Nat → NEv) : Prop extends NetEndless sv clock ns es where
  others : ∀ n j, j ≠ i → ((ns n).sys.api j).life = false ∧ (ns n).sys.api j ≠ .finish
  parent : ∀ n, es n ≠ .mock (.life .parentCancel)
  patient : ∀ n cl, CallsAt (sysOf ns) (evOf es) i cl n → cl ∈ telling → ∀ c ∈ cs, k c ≤ responses es c n
  connects : ∀ c ∈ cs, ∃ n, (ns n).sys.conns[c]? ≠ none ∨ k c ≤ responses es c n
  asks : ∀ c ∈ cs, ∃ n, k c ≤ (frames (asked c (upTo es n))).length
  stays : ∀ c ∈ cs, ∀ n, es n = .mock (.conn c .recv .closed) → k c ≤ responses es c n
  writes : ∀ c ∈ cs, ∀ n b, es n = .mock (.conn c (.write b) false) → k c ≤ responses es c n
  arrives : ∀ c ∈ cs, ∀ n, (∀ m, n ≤ m → ((ns m).links c).up ≠ []) → (∀ l, n ≤ l → ∃ m r, l ≤ m ∧ es m = .mock (.conn c .recv r)) →
    ∃ m, n ≤ m ∧ ((∃ b, es m = .mock (.conn c .recv (.data b))) ∨ k c ≤ responses es c m)
  receives : ∀ c ∈ cs, ∀ n, ((ns n).links c).down ≠ [] → ∃ m, n ≤ m ∧ ((∃ b, b ≠ [] ∧ es m = .receive c b) ∨ k c ≤ responses es c m)
  stops : (∃ n, ∀ c ∈ cs, k c ≤ responses es c n) → ∃ n, CallsAt (sysOf ns) (evOf es) i .requestStop n ∧
    ∀ m, ReturnsAt (sysOf ns) i n m → ∃ n', m ≤ n' ∧ CallsAt (sysOf ns) (evOf es) i .waitForTermination n' ∧ ∀ j, m ≤ j → j ≤ n' → ((ns j).sys.api i).life = false

/-- Nobody has been told to finish. -/
def calm : ApiPc → Bool
  | .idle | .panicked _ | .start _ false | .call _ => true
  | _ => false

theorem responses_mono (es : Nat → NEv) (c : Nat) {n m : Nat} (h : n ≤ m) : responses es c n ≤ responses es c m := by
  obtain ⟨l, hl⟩ := upTo_le (es := es) h
  unfold responses
  rw [hl, got_append]
  obtain ⟨x, hx⟩ := frames_append (got c (upTo es n)) (got c l)
  rw [← hx, List.length_append]
  omega

/-- One goroutine, `i`, makes the calls that start and stop the mock, and nobody cancels the context of the test. -/
structure Lone (sv : Server) (clock : Int) (i : Nat) (ns : Nat → Net) (es : Nat → NEv) : Prop extends NetEndless sv clock ns es where
  others : ∀ n j, j ≠ i → ((ns n).sys.api j).life = false ∧ (ns n).sys.api j ≠ .finish
  parent : ∀ n, es n ≠ .mock (.life .parentCancel)

theorem Test.lone {i : Nat} {cs : List Nat} {k : Nat → Nat} (h : Test sv clock i cs k ns es) : Lone sv clock i ns es := ⟨h.toNetEndless, h.others, h.parent⟩

theorem Lone.managed {i : Nat} (h : Lone sv clock i ns es) : Managed sv clock i (sysOf ns) (evOf es) where
  toEndless := h.toNetEndless.endless
  others := fun n j hj => (h.others n j hj).1

theorem Lone.calm {i : Nat} (h : Lone sv clock i ns es) (hn : ∀ n cl, CallsAt (sysOf ns) (evOf es) i cl n → cl ∉ telling) (n : Nat) :
    calm ((sysOf ns n).api i) = true := by
  have hm := h.managed
  induction n with
  | zero => rw [hm.first]; rfl
  | succ n ih =>
    rcases step_api (hm.step n) i with ⟨he, hx⟩ | ⟨_, hx⟩
    · generalize hq : (sysOf ns n).api i = pc at hx ih
      generalize hq' : (sysOf ns (n + 1)).api i = pc' at hx
      cases hx <;> first | rfl | (cases ih; done) | (cases ‹Bool› <;> first | rfl | cases ih) | skip
      obtain ⟨c, hc, hx⟩ := idle_step (hm.step n) he hq
      rw [← hq', hx]
      have := hn n c ⟨hq, hc⟩
      cases c <;> first | rfl | exact absurd (by simp [telling]) this
    · generalize (sysOf ns n).api i = pc at hx ih
      generalize (sysOf ns (n + 1)).api i = pc' at hx
      cases hx with
      | not => exact ih
      | wg => cases pc <;> first | exact ih | cases ih
      | init => cases pc <;> first | exact ih | cases ih

/-- As long as nobody stops it, no context is cancelled. -/
theorem Lone.untold {i : Nat} (h : Lone sv clock i ns es) (hn : ∀ n cl, CallsAt (sysOf ns) (evOf es) i cl n → cl ∉ telling) (n g : Nat) :
    (ns n).sys.isDone g = false := by
  have hm := h.managed
  induction n with
  | zero => rw [h.first]; rfl
  | succ n ih =>
    cases hd : (ns (n + 1)).sys.isDone g with
    | false => rfl
    | true =>
      exfalso
      have hnc : ∀ c r, evOf es n ≠ .conn c .cancel r := fun c r e => by
        obtain ⟨tr, htr⟩ := hm.toEndless.run (Nat.zero_le n)
        have hs := hm.step n
        rw [e] at hs
        rw [hm.first] at htr
        exact run_noCancel (htr.append (.cons hs (.nil _))) _ (List.mem_append_right _ List.mem_cons_self) c r rfl
      rcases step_tells (hm.step n) hnc ih hd with ht | ⟨j, cl, hj, hc, _⟩
      · have := h.parent n
        revert ht this
        unfold evOf
        cases es n with
        | mock e => rintro rfl hx; exact hx rfl
        | send => intro ht; cases ht
        | receive => intro ht; cases ht
      · by_cases hji : j = i
        · subst hji
          have hx := h.calm hn n
          rcases hc with hc | ⟨b, hc⟩ <;> (rw [hc] at hx; cases hx)
        · have := h.others n j hji
          rcases hc with hc | ⟨b, hc⟩
          · exact this.2 hc
          · have h1 := this.1
            rw [show (ns n).sys.api j = _ from hc] at h1; cases h1

/-- As long as nobody stops it, no listener is closed. -/
theorem Lone.open_ {i : Nat} (h : Lone sv clock i ns es) (hn : ∀ n cl, CallsAt (sysOf ns) (evOf es) i cl n → cl ∉ telling) (n : Nat) : (ns n).sys.closes = [] := by
  have hm := h.managed
  induction n with
  | zero => rw [h.first]; rfl
  | succ n ih =>
    rcases step_listener' (hm.step n) with ⟨_, e, _⟩ | ⟨_, e, _⟩ | ⟨_, ⟨j, b, e0⟩, _⟩ | ⟨_, _, _, _, _, _, e⟩
    · exact (show (ns (n + 1)).sys.closes = _ from e).trans ih
    · exact (show (ns (n + 1)).sys.closes = _ from e).trans ih
    · exfalso
      by_cases hji : j = i
      · subst hji
        have hx := h.calm hn n
        rw [e0] at hx; cases hx
      · have h1 := (h.others n j hji).1
        rw [show (ns n).sys.api j = _ from e0] at h1; cases h1
    · exact (show (ns (n + 1)).sys.closes = _ from e).trans ih

/-- **C118**, the clients: every client receives the responses it wants. -/
theorem C118_answered {i : Nat} {cs : List Nat} {k : Nat → Nat} (h : Test sv clock i cs k ns es) (hr : ∀ c ∈ cs, RoomyOn (sysOf ns) (evOf es) c) (hd : ∀ n, Modest sv ((ns n).sys.view 0)) :
    ∃ n, ∀ c ∈ cs, k c ≤ responses es c n := by
  have all : ∀ l : List Nat, (∀ c ∈ l, ∃ n, k c ≤ responses es c n) → ∃ n, ∀ c ∈ l, k c ≤ responses es c n := by
    intro l hl
    induction l with
    | nil => exact ⟨0, nofun⟩
    | cons c l ih =>
      obtain ⟨n1, h1⟩ := ih fun c hc => hl c (List.mem_cons_of_mem _ hc)
      obtain ⟨n2, h2⟩ := hl c List.mem_cons_self
      refine ⟨max n1 n2, fun d hd => ?_⟩
      rcases List.mem_cons.1 hd with rfl | hd
      · exact Nat.le_trans h2 (responses_mono es _ (Nat.le_max_right ..))
      · exact Nat.le_trans (h1 d hd) (responses_mono es _ (Nat.le_max_left ..))
  refine all cs fun c hc => Classical.byContradiction fun hno => ?_
  have hlt : ∀ n, ¬ k c ≤ responses es c n := fun n hx => hno ⟨n, hx⟩
  have hn : ∀ n cl, CallsAt (sysOf ns) (evOf es) i cl n → cl ∉ telling := fun n cl h1 h2 => hlt n (h.patient n cl h1 h2 c hc)
  have w : Working ns es c :=
    { accepted := by
        obtain ⟨n, hx | hx⟩ := h.connects c hc
        · exact ⟨n, hx⟩
        · exact absurd hx (hlt n)
      untold := fun n _ _ => h.lone.untold hn n _
      stays := fun n e => hlt n (h.stays c hc n e)
      writes := fun n b e => hlt n (h.writes c hc n b e)
      arrives := fun n a b => by
        obtain ⟨m, m1, ⟨x, m2⟩ | m2⟩ := h.arrives c hc n a b
        · exact ⟨m, x, m1, m2⟩
        · exact absurd m2 (hlt m)
      receives := fun n a => by
        obtain ⟨m, m1, ⟨x, m2, m3⟩ | m2⟩ := h.receives c hc n a
        · exact ⟨m, x, m1, m2, m3⟩
        · exact absurd m2 (hlt m) }
  obtain ⟨n, hn⟩ := h.asks c hc
  have hk : k c ≠ 0 := fun e => hlt 0 (by rw [e]; exact Nat.zero_le _)
  obtain ⟨m, r, _, hm⟩ := w.replied h.toNetEndless (hr c hc) (modest_below h.toNetEndless hd c) (n := n) (i := k c - 1) (List.getElem?_eq_getElem (by omega))
  have := (List.getElem?_eq_some_iff.1 hm).1
  exact hlt m (by unfold responses; omega)

/-- **C118**, what they receive: the responses answer the messages of the client, in order: each comes from an exchange with the mock that began after the client had sent all of the message. -/
theorem C118_answers {i : Nat} {cs : List Nat} {k : Nat → Nat} (h : Test sv clock i cs k ns es) (hr : ∀ c ∈ cs, RoomyOn (sysOf ns) (evOf es) c) (hd : ∀ n, Modest sv ((ns n).sys.view 0))
    {c j : Nat} (hc : c ∈ cs) (hj : j < k c) :
    ∃ n m msg r req corr client t1 s1 te s2, (frames (asked c (upTo es m)))[j]? = some msg ∧ (frames (got c (upTo es n)))[j]? = some r ∧ Accepted req corr client msg ∧ FitsBuffer req corr client ∧
      t1 = mocks (upTo es m) ∧ m ≤ n ∧ Exchange sv clock c req corr t1 s1 te s2 ∧ Framed (sent (actsOf c te)) [r] := by
  obtain ⟨n, hn⟩ := C118_answered h hr hd
  have hlt : j < (frames (got c (upTo es n))).length := Nat.lt_of_lt_of_le hj (hn c hc)
  obtain ⟨u1, msg, u2, payload, u3, n1, n2, req, corr, client, e1, e2, e3, e4, e5, e6, e7, e8, e9, _⟩ := C106_modest (h.toNetEndless.run n) (hd n) c (List.getElem?_eq_getElem hlt)
  have hu : u1 = upTo es u1.length ∧ u1.length ≤ n := by
    have hl := congrArg List.length e1
    simp only [upTo, List.length_map, List.length_range, List.length_append, List.length_cons, List.length_nil] at hl
    refine ⟨?_, by omega⟩
    have : u1 = (upTo es n).take u1.length := by rw [e1]; simp
    rw [this]
    unfold upTo
    rw [← List.map_take, List.take_range, List.length_map, List.length_range]
  rw [hu.1] at e5
  exact ⟨n, u1.length, msg, _, req, corr, client, _, _, _, _, e5, List.getElem?_eq_getElem hlt, e6, e7, by rw [← hu.1], hu.2, e8, e9⟩

/-- **C118**, posts: a client that sends a Fetch (one partition per topic) after a call of `SimplePost` or `ExtendedPost` has returned, from an offset up to that of the record, receives the record. -/
theorem C118_posts {i : Nat} {cs : List Nat} {k : Nat → Nat} (h : Test sv clock i cs k ns es) (hr : ∀ c ∈ cs, RoomyOn (sysOf ns) (evOf es) c) (hd : ∀ n, Modest sv ((ns n).sys.view 0))
    {sa : Sys} {a p : Nat} {call : PostCall} {tc : List SEv} (hcall : CallRun sa a call.call tc (ns p).sys) :
    ∃ (pos : Nat) (rec : Record), call.Matches sa.clock (ns p).sys.clock rec ∧ ((sa.view 0).log call.topic (BitVec.ofInt 32 call.partition)).length ≤ pos ∧
      ∀ (c n j : Nat) (msg : Bytes) (q : FetchRequest) (corr : I32) (client : Option Bytes), c ∈ cs → j < k c →
        (∀ n r, (frames (got c (upTo es n)))[j]? = some r → r.length + 4 < 2 ^ 31) →
        (frames (asked c (upTo es p))).length ≤ j → (frames (asked c (upTo es n)))[j]? = some msg → Accepted (.fetch q) corr client msg → FitsBuffer (.fetch q) corr client →
        (∀ t ∈ q.topics, ∃ p, t.partitions = [p]) →
        ∃ m r b x, (frames (got c (upTo es m)))[j]? = some r ∧ Framed b [r] ∧ Client.response Client.fetch b = some ((corr, 0, x), []) ∧
          List.Forall₂ (fun (qt : FetchTopic) (rt : Bytes × List Client.FetchedPartition) => rt.1 = qt.topic ∧
            List.Forall₂ (fun (par : FetchPartition) (fp : Client.FetchedPartition) => fp.partition = par.partition ∧
              (qt.topic = call.topic → par.partition = BitVec.ofInt 32 call.partition → 0 ≤ par.fetchOffset.toInt → par.fetchOffset.toInt ≤ pos →
                ∃ m, fp.messages[pos - par.fetchOffset.toInt.toNat]? = some m ∧ m.offset = BitVec.ofNat 64 pos ∧ m.timestamp = rec.timestamp ∧
                  m.key = call.key ∧ m.value = call.value))
              qt.partitions rt.2) q.topics x := by
  obtain ⟨pos, rec, p1, p2, p3⟩ := C106_posts (h.toNetEndless.run p) hcall
  refine ⟨pos, rec, p1, p2, ?_⟩
  intro c n j msg q corr client hc hj hlen hlate hm hacc hfit single
  obtain ⟨n0, hn0⟩ := C118_answered h hr hd
  obtain ⟨m, m1, m2, m3⟩ : ∃ m, n ≤ m ∧ p ≤ m ∧ n0 ≤ m := ⟨n + p + n0, by omega, by omega, by omega⟩
  have hlt : j < (frames (got c (upTo es m))).length := Nat.lt_of_lt_of_le hj (Nat.le_trans (hn0 c hc) (responses_mono es c m3))
  obtain ⟨tb, e, hrun⟩ := h.toNetEndless.run_from m2
  have hsm := C114_small (h.toNetEndless.run m) (hd m) c
  have hmm : (frames (asked c (upTo es m)))[j]? = some msg := by
    obtain ⟨l, hl⟩ := upTo_le (es := es) m1
    obtain ⟨x, hx⟩ := frames_append (asked c (upTo es n)) (asked c l)
    rw [hl, asked_append, ← hx, List.getElem?_append_left (List.getElem?_eq_some_iff.1 hm).1, hm]
  rw [e] at hsm
  obtain ⟨b, x, h1, h2, h3⟩ := p3 tb (ns m) c j _ msg q corr client hrun hsm hlate (by rw [← e]; exact hmm) hacc hfit single
    (by rw [← e]; exact List.getElem?_eq_getElem hlt) (hlen m _ (List.getElem?_eq_getElem hlt)) (hd m).room
  exact ⟨m, _, b, x, List.getElem?_eq_getElem hlt, h1, h2, h3⟩

/-- **C118**, the test: RequestStop and WaitForTermination return, and then every goroutine of the mock has ended or has signed off. -/
theorem C118_ends {i : Nat} {cs : List Nat} {k : Nat → Nat} (h : Test sv clock i cs k ns es) (hr : KM.Roomy (sysOf ns) (evOf es)) (hd : ∀ n, Modest sv ((ns n).sys.view 0)) :
    ∃ n m n' m', CallsAt (sysOf ns) (evOf es) i .requestStop n ∧ ReturnsAt (sysOf ns) i n m ∧ m ≤ n' ∧ CallsAt (sysOf ns) (evOf es) i .waitForTermination n' ∧ ReturnsAt (sysOf ns) i n' m' ∧
      (∀ c ∈ cs, k c ≤ responses es c n) ∧ (∀ r ∈ (ns m').sys.runs, r.pc = .ended) ∧ ∀ c ∈ (ns m').sys.conns, SignedOff c := by
  have hm := h.lone.managed
  obtain ⟨n, n1, n2⟩ := h.stops (C118_answered h (fun c _ => hr c) hd)
  obtain ⟨μ, hμ⟩ := C117_always hm (n := n) (by rw [n1.1]; rfl)
  obtain ⟨o, o1, o2⟩ := C117_call_partial hm hr n1 hμ (by simp)
  have : ∃ m μ', ReturnsAt (sysOf ns) i n m ∧ μ' ≠ .up ∧ Mode.Holds μ' (sysOf ns m) := by
    cases o1 with
    | stop => obtain ⟨m, a, b⟩ := o2; exact ⟨m, .stopping, a, nofun, b⟩
    | stopAgain hu => obtain ⟨m, a, b⟩ := o2; exact ⟨m, _, a, hu, b⟩
  obtain ⟨m, μ', m1, m2, m3⟩ := this
  obtain ⟨n', a1, a2, a3⟩ := n2 m m1
  obtain ⟨o, o1, o2⟩ := C117_call_partial hm hr a2 (C117_between hm a1 a3 m3) (by simp)
  have : ∃ m' μ, ReturnsAt (sysOf ns) i n' m' ∧ (μ = .new ∨ μ = .down) ∧ Mode.Holds μ (sysOf ns m') := by
    cases o1 with
    | waitNew => obtain ⟨m, a, b⟩ := o2; exact ⟨m, _, a, .inl rfl, b⟩
    | waitUp => exact absurd rfl m2
    | wait => obtain ⟨m, a, b⟩ := o2; exact ⟨m, _, a, .inr rfl, b⟩
  obtain ⟨m', μ, b1, b2, b3⟩ := this
  refine ⟨n, m, n', m', n1, m1, a1, a2, b1, h.patient n _ n1 (by simp [telling]), ?_⟩
  rcases b2 with rfl | rfl
  · obtain ⟨x, y⟩ := b3
    rw [show (ns m').sys.runs = _ from x, show (ns m').sys.conns = _ from y]
    exact ⟨nofun, nofun⟩
  · exact b3.2.2.2

end KM.Props
