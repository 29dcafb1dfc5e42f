import Verif.Props.TestEnds
import Verif.Props.Ended
/-
Property C124: in a small test every client gets all it asks for.
-/
namespace KM.Props
open KM Spec

/-! ### Small tests -/

/-- The data of a small test: no partition has more than `B` bytes of records (as they are sent); the topics and partitions take less than 1 GiB in an assignment, and the table of versions
has less than 2^27 entries (it has fewer than 100). -/
structure Little (B : Nat) (sv : Server) (w : World) : Prop where
  logs : ∀ t p, logBytes w t p ≤ B
  names : assignmentBytes w < 2 ^ 30
  versions : sv.versions.length < 2 ^ 27

/-- The Fetch requests that the client of connection `c` sends allow at least `B` bytes for each partition. -/
def Ample (B : Nat) (es : Nat → NEv) (c : Nat) : Prop :=
  ∀ (n i : Nat) (m : Bytes) (q : FetchRequest), (frames (asked c (upTo es n)))[i]? = some m → fetchAsked m = some q → ∀ src ∈ q.named, (B : Int) ≤ src.2.maxBytes.toInt

theorem Little.modest {B : Nat} (hB : B ≤ 2 ^ 22) {sv : Server} {w : World} (h : Little B sv w) : Modest sv w :=
  ⟨fun t p => by have := h.logs t p; omega, by have := h.names; omega, by have := h.versions; omega⟩

/-- No response has 2 GiB. -/
theorem Little.bytes {B : Nat} (hB : B ≤ 2 ^ 22) {sv : Server} {w : World} (h : Little B sv w) {req : Request} (hb : req.body.length ≤ 4096) : mostBytes sv w req + 8 < 2 ^ 31 := by
  have hn := h.names
  have hv := h.versions
  cases req with
  | fetch q =>
    have h1 := named_few hb
    have h2 : mostFetched w q ≤ 2 ^ 22 := foldr_max_le fun x hx => by
      obtain ⟨src, _, rfl⟩ := List.mem_map.1 hx
      have := h.logs src.1 src.2.partition
      omega
    have h3 := Nat.mul_le_mul h1 h2
    show 2 * (Request.fetch q).body.length + q.named.length * mostFetched w q + 8 < 2 ^ 31
    omega
  | listOffsets q => show 2 * (Request.listOffsets q).body.length + 8 < 2 ^ 31; omega
  | metadata topics => show 33 + 18 * (Request.metadata topics).body.length + 8 < 2 ^ 31; omega
  | offsetCommit q => show (Request.offsetCommit q).body.length + 8 < 2 ^ 31; omega
  | offsetFetch q => show 4 * (Request.offsetFetch q).body.length + 8 < 2 ^ 31; omega
  | findCoordinator => show 21 + 8 < 2 ^ 31; omega
  | joinGroup => show 38 + 8 < 2 ^ 31; omega
  | heartbeat => show 2 + 8 < 2 ^ 31; omega
  | leaveGroup => show 2 + 8 < 2 ^ 31; omega
  | syncGroup => show 16 + assignmentBytes w + 8 < 2 ^ 31; omega
  | apiVersions => show 6 + 6 * sv.versions.length + 8 < 2 ^ 31; omega

theorem received_short {B : Nat} (hB : B ≤ 2 ^ 22) {sv : Server} {clock : Int} {tr : List NEv} {n : Net} (h : Net.Run (Net.new sv clock) tr n) (hm : Little B sv (n.sys.view 0)) {c i : Nat} {r : Bytes}
    (hr : (frames (got c tr))[i]? = some r) : r.length + 4 < 2 ^ 31 := by
  obtain ⟨u1, m, u2, payload, u3, n1, n2, req, corr, client, rfl, e2, e3, e4, e5, e6, e7, e8, e9, _⟩ := C106_modest h (hm.modest hB) c hr
  have h1 := C114_wire e8
  have h2 : (sent (actsOf c (mocks (u2 ++ [.mock (.conn c (.write payload) true)])))).length = 4 + r.length := framed_length e9
  obtain ⟨hist, hreach, _⟩ := reachedBy ((e2.append e3).sys) 0
  obtain ⟨es, h3, _⟩ := e4.sys.steps 0
  have := mostBytes_mono (sv := sv) hreach.nodup h3 req
  have := hm.bytes hB e8.body
  omega

variable {sv : Server} {clock : Int} {ns : Nat → Net} {es : Nat → NEv} {F : Goroutine → Prop} {B : Nat}

/-- A request that is taken up has been sent by the client. -/
theorem begun_asked (h : NetEndless sv clock ns es F) {c n : Nat} {m : Bytes} (hb : evOf es n = .conn c (.reqBegin m) ()) :
    ∃ i : Nat, (frames (asked c (upTo es (n + 1))))[i]? = some m := by
  have h1 := served_first (h.run (n + 1)) c
  rw [← past_upTo] at h1
  have h2 : m ∈ served (past (evOf es) c (n + 1)) := by
    rw [past_succ, hb, actsOf_self, served_append']
    simp [served]
  rw [h1] at h2
  exact List.getElem?_of_mem (List.mem_of_mem_take h2)

/-- All Fetch requests have room. -/
theorem Ample.roomy (h : NetEndless sv clock ns es F) (hB : B ≤ 2 ^ 22) (hl : ∀ n, Little B sv ((ns n).sys.view 0)) {c : Nat} (ha : Ample B es c) : RoomyOn (sysOf ns) (evOf es) c := by
  rintro n m q ⟨b, b1, b2, _⟩ hq src hs
  obtain ⟨i, hi⟩ := begun_asked h b2
  have h1 := ha _ i m q hi hq src hs
  refine ⟨((hl n).modest hB).room _ _, ?_⟩
  have h2 : (((available ((ns n).sys.view 0) src).map wireSize).sum) ≤ logBytes ((ns n).sys.view 0) src.1 src.2.partition := by
    unfold available logBytes
    exact sum_sublist ((List.drop_sublist _ _).map _)
  have h3 := (hl n).logs src.1 src.2.partition
  show (((available ((ns n).sys.view 0) src).map wireSize).sum : Int) ≤ _
  omega

/-! ### C124 -/

/-- **C124**, responses: a client whose connection is kept receives a response to every message it sends, in order (C108). -/
theorem C124_answered (h : NetEndless sv clock ns es F) (hB : B ≤ 2 ^ 22) (hl : ∀ n, Little B sv ((ns n).sys.view 0)) {c : Nat} (w : Working ns es c) (ha : Ample B es c) {n i : Nat} {msg : Bytes}
    (hm : (frames (asked c (upTo es n)))[i]? = some msg) (hF : F (.conn c) := by first | exact trivial | assumption) :
    ∃ m r req corr client t1 s1 te s2, n ≤ m ∧ (frames (got c (upTo es m)))[i]? = some r ∧ Accepted req corr client msg ∧ FitsBuffer req corr client ∧
      Exchange sv clock c req corr t1 s1 te s2 ∧ Framed (sent (actsOf c te)) [r] :=
  C108 h w (ha.roomy h hB hl) (modest_below h (fun n => (hl n).modest hB) c) hm

/-- **C124**, what a consumer has received: the first `k` responses of a consumer that polls a partition from `first` on have the records of the partition from `first` on, each once, in order, labelled with
their offsets. -/
theorem C124_exact (h : NetEndless sv clock ns es F) (hB : B ≤ 2 ^ 22) (hl : ∀ n, Little B sv ((ns n).sys.view 0)) {c : Nat} (w : Working ns es c) (ha : Ample B es c)
    {t : Bytes} {p : I32} {first : I64} {idx : Nat → Nat} {ms : Nat → List MessageV1} (hc : Consuming es c t p first idx ms) (h0 : 0 ≤ first.toInt) (h1 : first.toInt < 2 ^ 62) (k : Nat)
    (hF : F (.conn c) := by first | exact trivial | assumption) :
    ∃ n, Labelled first.toInt (slice (((ns n).sys.view 0).log t p) first.toInt ((List.range k).flatMap ms).length) ((List.range k).flatMap ms) := by
  have hd := fun n => (hl n).modest hB
  obtain ⟨n, hn⟩ := C109_progress h w (ha.roomy h hB hl) (modest_below h hd c) (fun n _ _ hr => received_short hB (h.run n) (hl n) hr) (fun n => (hd n).room) hc k
  have := (C109_modest (h.run n) (hd n) hn h0 h1).1
  rw [pollMessages_upTo] at this
  exact ⟨n, this⟩

/-- **C124**, posts: once a call of `SimplePost` or `ExtendedPost` has returned, every consumer that polls the partition, from an offset up to that of the record, receives the record, at its place. -/
theorem C124_all (h : NetEndless sv clock ns es F) (hB : B ≤ 2 ^ 22) (hl : ∀ n, Little B sv ((ns n).sys.view 0)) {sa : Sys} {a s : Nat} {call : PostCall} {tc : List SEv}
    (hcall : CallRun sa a call.call tc (ns s).sys) (hF : ∀ c, Working ns es c → F (.conn c) := by first | exact fun _ _ => trivial | assumption) :
    ∃ (pos : Nat) (rec : Record), call.Matches sa.clock (ns s).sys.clock rec ∧ ((sa.view 0).log call.topic (BitVec.ofInt 32 call.partition)).length ≤ pos ∧
      ∀ (c : Nat) (first : I64) (idx : Nat → Nat) (ms : Nat → List MessageV1), Working ns es c → Ample B es c →
        Consuming es c call.topic (BitVec.ofInt 32 call.partition) first idx ms → 0 ≤ first.toInt → first.toInt ≤ pos → first.toInt < 2 ^ 62 →
        ∃ k m, ((List.range k).flatMap ms)[pos - first.toInt.toNat]? = some m ∧ m.offset = BitVec.ofNat 64 pos ∧ m.timestamp = rec.timestamp ∧ m.key = call.key ∧ m.value = call.value := by
  have hd := fun n => (hl n).modest hB
  obtain ⟨pos, rec, p1, p2, p3⟩ := C109_all h hcall hF
  refine ⟨pos, rec, p1, p2, fun c first idx ms w ha hc h0 hf h1 => ?_⟩
  refine p3 c first idx ms w (ha.roomy h hB hl) (modest_below h hd c) (fun n _ _ hr => received_short hB (h.run n) (hl n) hr) (fun n => (hd n).room) hc h0 hf fun n => ?_
  have := (hd n).few call.topic (BitVec.ofInt 32 call.partition)
  omega

end KM.Props
