import Verif.Props.Small
import Verif.Props.Members
/-
Property C125: a member of a group that consumes what it has been assigned receives every record, except those of topics and partitions that are created after it has joined.
-/
namespace KM.Props
open KM Spec

variable {sv : Server} {clock : Int} {ns : Nat → Net} {es : Nat → NEv} {F : Goroutine → Prop} {B : Nat}

/-- **C124**, with the times: the response to a message that the client has not sent completely at step `s` comes from an exchange that begins after `s`. -/
theorem small_reply (h : NetEndless sv clock ns es F) (hB : B ≤ 2 ^ 22) (hl : ∀ n, Little B sv ((ns n).sys.view 0)) {c : Nat} (w : Working ns es c) (ha : Ample B es c) {n i s : Nat} {msg : Bytes}
    (hs : (frames (asked c (upTo es s))).length ≤ i) (hm : (frames (asked c (upTo es n)))[i]? = some msg) (hF : F (.conn c) := by first | exact trivial | assumption) :
    ∃ m r req corr client t1 n1 te n2 x y, (frames (got c (upTo es m)))[i]? = some r ∧ Accepted req corr client msg ∧ FitsBuffer req corr client ∧
      Exchange sv clock c req corr t1 n1.sys te n2.sys ∧ Framed (sent (actsOf c te)) [r] ∧ Net.Run (ns s) x n1 ∧ Net.Run n2 y (ns m) := by
  obtain ⟨m0, r0, _, _, _, _, _, _, _, a1, a2, _⟩ := C124_answered h hB hl w ha hm
  have hlt : s ≤ n := by
    refine Classical.byContradiction fun hn => ?_
    obtain ⟨l, hl'⟩ := upTo_le (es := es) (show n ≤ s by omega)
    obtain ⟨x, hx⟩ := frames_append (asked c (upTo es n)) (asked c l)
    rw [hl', asked_append, ← hx, List.length_append] at hs
    have := (List.getElem?_eq_some_iff.1 hm).1
    omega
  obtain ⟨tb, e, hrun⟩ := h.run_from (show s ≤ m0 by omega)
  have hsm := C114_small (h.run m0) ((hl m0).modest hB) c
  rw [e] at hsm
  obtain ⟨u1, msg', u2, payload, u3, n1, n2, req, corr, client, e1, e2, e3, e4, e5, e6, e7, e8, e9, _⟩ := C106_after (h.run s) hrun c hsm hs (by rw [← e]; exact a2)
  have : msg' = msg := by
    obtain ⟨l, hl'⟩ := upTo_le (es := es) a1
    have x1 : (frames (asked c (upTo es m0)))[i]? = some msg := by
      obtain ⟨x, hx⟩ := frames_append (asked c (upTo es n)) (asked c l)
      rw [hl', asked_append, ← hx, List.getElem?_append_left (List.getElem?_eq_some_iff.1 hm).1, hm]
    rw [e, e1, List.append_assoc, ← List.append_assoc, asked_append] at x1
    obtain ⟨x, hx⟩ := frames_append (asked c (upTo es s ++ u1)) (asked c ([.mock (.conn c (.reqBegin msg') ())] ++ ((u2 ++ [.mock (.conn c (.write payload) true)]) ++ u3)))
    rw [← hx, List.getElem?_append_left (List.getElem?_eq_some_iff.1 e5).1, e5] at x1
    exact Option.some.inj x1
  subst this
  exact ⟨m0, r0, req, corr, client, _, n1, _, n2, _, _, a2, e6, e7, e8, e9, e2, e4⟩

/-- A member of a group: message `i` on connection `d` is its SyncGroup request (without assignments: it is not the leader, C42), with correlation id `corr`; `ts` is the assignment that it reads in the
response. It then polls each partition that it has been assigned, on the connection `con t p`, from the offset `first t p` on. -/
structure Attending (es : Nat → NEv) (d i : Nat) (ts : List (Bytes × List I32)) (con : Bytes → I32 → Nat) (first : Bytes → I32 → I64) (idx : Bytes → I32 → Nat → Nat)
    (ms : Bytes → I32 → Nat → List MessageV1) : Prop where
  asks : ∃ (n : Nat) (msg : Bytes) (g m : Bytes) (gen corr : I32) (client : Option Bytes), (frames (asked d (upTo es n)))[i]? = some msg ∧ Accepted (.syncGroup g gen m []) corr client msg ∧
    FitsBuffer (.syncGroup g gen m []) corr client ∧
    ∀ (n : Nat) (r b : Bytes) (ts' : List (Bytes × List I32)), (frames (got d (upTo es n)))[i]? = some r → Framed b [r] → Client.response Client.syncGroup b = some ((corr, 0, 1, ts', none), []) → ts = ts'
  polls : ∀ x ∈ ts, ∀ p ∈ x.2, Consuming es (con x.1 p) x.1 p (first x.1 p) (idx x.1 p) (ms x.1 p)

/-- The assignment that the member reads has every partition that exists before it has sent its SyncGroup request. -/
theorem assigned_all (h : NetEndless sv clock ns es F) (hB : B ≤ 2 ^ 22) (hl : ∀ n, Little B sv ((ns n).sys.view 0)) (hnames : ∀ n t, ((ns n).sys.view 0).hasTopic t → ShortStr t)
    {d i s : Nat} {ts : List (Bytes × List I32)} {con : Bytes → I32 → Nat} {first : Bytes → I32 → I64} {idx : Bytes → I32 → Nat → Nat} {ms : Bytes → I32 → Nat → List MessageV1}
    (hm : Attending es d i ts con first idx ms) (w : Working ns es d) (ha : Ample B es d) (hs : (frames (asked d (upTo es s))).length ≤ i) {t : Bytes} {p : I32} (hp : ((ns s).sys.view 0).hasPartition t p)
    (hF : F (.conn d) := by first | exact trivial | assumption) :
    ∃ x ∈ ts, x.1 = t ∧ p ∈ x.2 := by
  obtain ⟨n, msg, g, m, gen, corr, client, a1, a2, a3, a4⟩ := hm.asks
  obtain ⟨N, r, req, corr', client', t1, n1, te, n2, x, y, b1, b2, b3, b4, b5, b6, b7⟩ := small_reply h hB hl w ha hs a1
  obtain ⟨rfl, rfl, _⟩ := C103_unambiguous (e := []) (e' := []) a2 a3 b2 b3 rfl
  have hlen := received_short hB (h.run N) (hl N) b1
  have hsz : (sent (actsOf d te)).length = 4 + r.length := framed_length b5
  obtain ⟨ts', c1, c2⟩ := C59_sync_group b4 (fun t ht => hnames N t ((C46_kept b7.sys).2.2.1 t ht)) (by omega)
  have e := a4 N r _ ts' b1 b5 c1
  subst e
  have hp1 := (C46_kept b6.sys).2.2.2 t p hp
  obtain ⟨z, z1, z2⟩ := List.mem_map.1 (c2.topics t hp1.hasTopic)
  exact ⟨z, z1, z2, c2.parts z z1 p (by rw [z2]; exact hp1)⟩

/-- **C125**: a member that consumes what it has been assigned receives every record that is posted to a partition that existed before it sent its SyncGroup request (from the offset on at which it begins
with the partition), at its place, once. -/
theorem C125_receives_partial (h : NetEndless sv clock ns es F) (hB : B ≤ 2 ^ 22) (hl : ∀ n, Little B sv ((ns n).sys.view 0)) (hnames : ∀ n t, ((ns n).sys.view 0).hasTopic t → ShortStr t)
    {sa : Sys} {a s : Nat} {call : PostCall} {tc : List SEv} (hcall : CallRun sa a call.call tc (ns s).sys) (hF : ∀ c, Working ns es c → F (.conn c) := by first | exact fun _ _ => trivial | assumption) :
    ∃ (pos : Nat) (rec : Record), call.Matches sa.clock (ns s).sys.clock rec ∧ ((sa.view 0).log call.topic (BitVec.ofInt 32 call.partition)).length ≤ pos ∧
      ∀ (d i s0 : Nat) (ts : List (Bytes × List I32)) (con : Bytes → I32 → Nat) (first : Bytes → I32 → I64) (idx : Bytes → I32 → Nat → Nat) (ms : Bytes → I32 → Nat → List MessageV1),
        Attending es d i ts con first idx ms → Working ns es d → Ample B es d → (∀ t p, Working ns es (con t p) ∧ Ample B es (con t p)) →
        (frames (asked d (upTo es s0))).length ≤ i → ((ns s0).sys.view 0).hasPartition call.topic (BitVec.ofInt 32 call.partition) →
        0 ≤ (first call.topic (BitVec.ofInt 32 call.partition)).toInt → (first call.topic (BitVec.ofInt 32 call.partition)).toInt ≤ pos → (first call.topic (BitVec.ofInt 32 call.partition)).toInt < 2 ^ 62 →
        ∃ k m, ((List.range k).flatMap (ms call.topic (BitVec.ofInt 32 call.partition)))[pos - (first call.topic (BitVec.ofInt 32 call.partition)).toInt.toNat]? = some m ∧
          m.offset = BitVec.ofNat 64 pos ∧ m.timestamp = rec.timestamp ∧ m.key = call.key ∧ m.value = call.value := by
  obtain ⟨pos, rec, p1, p2, p3⟩ := C124_all h hB hl hcall hF
  refine ⟨pos, rec, p1, p2, fun d i s0 ts con first idx ms hm w ha hw hs hp h0 h1 h2 => ?_⟩
  obtain ⟨⟨t, ps⟩, z1, rfl, z3⟩ := assigned_all h hB hl hnames hm w ha hs hp (hF d w)
  exact p3 _ _ _ _ (hw _ _).1 (hw _ _).2 (hm.polls _ z1 _ z3) h0 h1 h2

/-- **C125**: a member is never told to join again: every Heartbeat is answered without error, whatever has been created. -/
theorem C125_untold {k : Nat} {g m : Bytes} {gen c : I32} {t1 tr : List SEv} {s1 s2 : Sys} (h : Exchange sv clock k (.heartbeat g gen m) c t1 s1 tr s2) :
    Client.response Client.errorCode (sent (actsOf k tr)) = some ((c, 0), []) := C79_heartbeat_partial (.inl h)

/-- A test posts to the topic "u". -/
def postOther : Call := .simplePost [117] 0 none (some [3])

/-- The member has its assignment; then the test posts to a topic that did not exist. -/
def otherPosted : Sys := stateAfter (caller 1 postOther 6) (doneWith 0 5 askSync 7 oneRecord)

set_option synthInstance.maxSize 1000 in
set_option maxRecDepth 100000 in
/-- **C125** is false of topics (and partitions) that are created after the member has got its assignment: the member is assigned partition 0 of "t"; then a record is posted to "u", which did not exist; the
Heartbeat of the member that comes after that is answered without error, so that it does not join again, and goes on with what it has been assigned. -/
theorem C125_false : ∃ (t1 t2 ts th a : List SEv) (s1 s2 s3 s4 : Sys), Exchange ⟨9092, []⟩ 0 0 askSync 7 t1 s1 ts s2 ∧
    Client.response Client.syncGroup (sent (actsOf 0 ts)) = some ((7, 0, 1, [([116], [0])], none), []) ∧
    Sys.Run s2 a s3 ∧ effectsOf a ≠ [] ∧ (s2.view 0).log [117] 0 = [] ∧ ((s3.view 0).log [117] 0).map (·.value) = [some [3]] ∧
    Exchange ⟨9092, []⟩ 0 0 (.heartbeat [103] 1 [109]) 8 t2 s3 th s4 ∧ Client.response Client.errorCode (sent (actsOf 0 th)) = some ((8, 0), []) := by
  obtain ⟨t0, h⟩ := oneRecord_run
  have e1 := exchange_of_play h 0 5 askSync 7 askSync_wf (by decide +kernel)
  obtain ⟨⟨r1, q1⟩, _⟩ := doneWith_run h 0 5 askSync 7 0 askSync 8
  have q2 : Sys.Run (Sys.new ⟨9092, []⟩ 0) _ otherPosted := q1.append (stateAfter_run (caller 1 postOther 6) _)
  have e2 := exchange_of_play q2 0 3 (.heartbeat [103] 1 [109]) 8 (by unfold Request.WellFormed ShortStr; decide) (by decide +kernel)
  refine ⟨_, _, _, _, _, _, _, _, _, e1, by decide +kernel, (stateAfter_run [.conn 0] _).append ((stateAfter_run (caller 1 postOther 6) _).append ((stateAfter_run (asks 0 _ 8) _).append (stateAfter_run [.conn 0] _))),
    ?_, ?_, ?_, e2, C125_untold e2⟩ <;> decide +kernel

end KM.Props
