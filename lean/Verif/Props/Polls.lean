import Verif.Props.Delivered
import Verif.Props.Seen
import Verif.Props.Seek
/-
C109: a consumer, as seen from its own end of its connections. It fetches again and again, each time from the offset after the last message it has received.
-/
namespace KM.Props
open KM KM.Spec

/-- Where a consumer goes on that has received these messages: after the last of them. -/
def nextOffset (first : I64) (ms : List MessageV1) : I64 := match ms.getLast? with
  | none => first
  | some m => m.offset + 1

/-- A Fetch of a consumer: it is message `idx` of its client on connection `conn`, and the response had these messages for the consumer's partition. -/
structure Poll where
  conn : Nat
  idx : Nat
  msgs : List MessageV1

/-- The client has sent, as its message `idx`, a Fetch request for partition `p` of topic `t` from offset `o` (for other topics as well perhaps, one partition each), and has received the
response, in which it read the messages. -/
inductive Poll.Seen (tr : List NEv) (t : Bytes) (p : I32) (o : I64) (x : Poll) : Prop where
  | mk {msg r b : Bytes} {q : FetchRequest} {corr maxBytes : I32} {client : Option Bytes} {j : Nat} {y : List (Bytes × List Client.FetchedPartition)} {fp : Client.FetchedPartition}
      (hm : (frames (asked x.conn tr))[x.idx]? = some msg) (ha : Accepted (.fetch q) corr client msg) (hb : FitsBuffer (.fetch q) corr client)
      (hone : ∀ t ∈ q.topics, ∃ p, t.partitions = [p]) (hq : q.topics[j]? = some ⟨t, [⟨p, o, maxBytes⟩]⟩)
      (hr : (frames (got x.conn tr))[x.idx]? = some r) (hl : r.length + 4 < 2 ^ 31) (hf : Framed b [r]) (hd : Client.response Client.fetch b = some ((corr, 0, y), []))
      (hy : y[j]? = some (t, [fp])) (hms : fp.messages = x.msgs)

def pollMessages (ps : List Poll) : List MessageV1 := ps.flatMap (·.msgs)

/-- A consumer that began at offset `first` has made these fetches, each from the offset after the last message it had received. -/
inductive Polled (tr : List NEv) (t : Bytes) (p : I32) (first : I64) : List Poll → Prop where
  | none : Polled tr t p first []
  | more {ps : List Poll} {x : Poll} (h : Polled tr t p first ps) (hx : x.Seen tr t p (nextOffset first (pollMessages ps))) : Polled tr t p first (ps ++ [x])

theorem pollMessages_snoc (ps : List Poll) (x : Poll) : pollMessages (ps ++ [x]) = pollMessages ps ++ x.msgs := by simp [pollMessages]

/-- A Fetch and its response, from the client's end; in state `na` the client has not sent all of the request. -/
theorem fetched_at {sv : Server} {clock : Int} {ta tb : List NEv} {na n : Net} (h1 : Net.Run (Net.new sv clock) ta na) (h2 : Net.Run na tb n) {c i : Nat}
    (hs : SmallReplies sv (actsOf c (mocks (ta ++ tb)))) (hlate : (frames (asked c ta)).length ≤ i) {msg r : Bytes} {q : FetchRequest} {corr : I32} {client : Option Bytes}
    (hm : (frames (asked c (ta ++ tb)))[i]? = some msg) (ha : Accepted (.fetch q) corr client msg)
    (hb : FitsBuffer (.fetch q) corr client) (hone : ∀ t ∈ q.topics, ∃ p, t.partitions = [p]) (hr : (frames (got c (ta ++ tb)))[i]? = some r) (hl : r.length + 4 < 2 ^ 31)
    (hroom : ∀ t p, ∀ x ∈ (n.sys.view 0).log t p, wireSize x < 2 ^ 31) :
    ∃ b y, Framed b [r] ∧ Client.response Client.fetch b = some ((corr, 0, y), []) ∧
      List.Forall₂ (fun (qt : FetchTopic) (rt : Bytes × List Client.FetchedPartition) => rt.1 = qt.topic ∧
        List.Forall₂ (fun (par : FetchPartition) (fp : Client.FetchedPartition) => fp.partition = par.partition ∧ fp.errorCode = 0 ∧
          Answers ((na.sys.view 0).log qt.topic par.partition) ((n.sys.view 0).log qt.topic par.partition) par fp.messages fp.highWatermark) qt.partitions rt.2) q.topics y := by
  obtain ⟨u1, m', u2, payload, u3, n1, n2, req, corr', client', e1, e2, e3, e4, e5, e6, e7, e8, e9, _⟩ := C106_after h1 h2 c hs hlate hr
  have : m' = msg := by
    obtain ⟨x, hx⟩ := frames_append (asked c (ta ++ u1)) (asked c ([.mock (.conn c (.reqBegin m') ())] ++ ((u2 ++ [.mock (.conn c (.write payload) true)]) ++ u3)))
    rw [e1, List.append_assoc, ← List.append_assoc, asked_append, ← hx, List.getElem?_append_left (List.getElem?_eq_some_iff.1 e5).1, e5] at hm
    exact Option.some.inj hm
  subst this
  obtain ⟨rfl, rfl, _⟩ := C103_unambiguous (e := []) (e' := []) ha hb e6 e7 rfl
  have hsz : (sent (actsOf c (mocks (u2 ++ [.mock (.conn c (.write payload) true)])))).length = r.length + 4 := by
    generalize sent (actsOf c (mocks (u2 ++ [.mock (.conn c (.write payload) true)]))) = b at e9
    cases e9 with
    | cons x1 x2 x3 => cases x3; simp [x1]; omega
  have hkeep := (C46_kept (e4.sys)).1
  have hkeep' := (C46_kept (e2.sys)).1
  obtain ⟨y, y1, y2⟩ := C59_fetch_partial e8 hone (fun t p y hy => hroom t p y (by rw [hkeep]; exact List.mem_append_left _ hy)) (by rw [hsz]; exact hl)
  refine ⟨_, y, e9, y1, List.Forall₂.imp ?_ y2⟩
  rintro qt rt ⟨g1, g2⟩
  refine ⟨g1, List.Forall₂.imp ?_ g2⟩
  rintro par fp ⟨g3, g4, k, k1, k2, k3, k4, k5⟩
  refine ⟨g3, g4, k, ?_, ?_, ?_, k4, ?_⟩
  · rw [hkeep', List.length_append] at k1; omega
  · rw [hkeep, List.length_append]; omega
  · rw [hkeep, List.take_append_of_le_length k2]; exact k3
  · rw [hkeep, List.take_append_of_le_length k2]; exact k5

/-- **C109**: the messages that a consumer has received are the records of the partition from offset `first` on, in order, without gap or repetition, unaltered and labelled with their
offsets. -/
theorem C109 {sv : Server} {clock : Int} {tr : List NEv} {n : Net} (h : Net.Run (Net.new sv clock) tr n) 
    (hroom : ∀ t p, ∀ x ∈ (n.sys.view 0).log t p, wireSize x < 2 ^ 31) {t : Bytes} {p : I32} {first : I64} {ps : List Poll} (hp : Polled tr t p first ps)
    (hs : ∀ x ∈ ps, SmallReplies sv (actsOf x.conn (mocks tr))) (h0 : 0 ≤ first.toInt)
    (hlen : first.toInt + ((n.sys.view 0).log t p).length < 2 ^ 63) :
    Labelled first.toInt (slice ((n.sys.view 0).log t p) first.toInt (pollMessages ps).length) (pollMessages ps) ∧
      (nextOffset first (pollMessages ps)).toInt = first.toInt + (pollMessages ps).length := by
  induction hp with
  | none => exact ⟨⟨by simp [pollMessages, slice], by simp [pollMessages, slice]⟩, by simp [pollMessages, nextOffset]⟩
  | @more ps x _ hx ih =>
    obtain ⟨i1, i2⟩ := ih fun x hx => hs x (List.mem_append_left _ hx)
    obtain ⟨hm, ha, hb, hone, hq, hr, hl, hf, hd, hy, hms⟩ := hx
    obtain ⟨b', y', g1, g2, g3⟩ := fetched_at (.nil _) h (hs x (by simp)) (Nat.zero_le _) hm ha hb hone hr hl hroom
    cases framed_unique hf g1
    rw [hd] at g2; cases g2
    obtain ⟨_, g4⟩ := forall2_at g3 hq hy
    cases g4 with
    | cons g4 _ =>
    obtain ⟨_, _, k, _, k2, k3, _, _⟩ := g4
    dsimp only at k2 k3
    rw [hms] at k3
    rw [pollMessages_snoc]
    generalize (n.sys.view 0).log t p = log at *
    generalize pollMessages ps = rs at *
    rw [i2] at k3
    have e : (log.take k).drop (first.toInt + rs.length).toNat = slice log (first.toInt + rs.length) x.msgs.length := by
      have := k3.1
      unfold slice
      rw [this, List.drop_take, List.length_take, List.take_eq_take_iff]
      omega
    rw [e] at k3
    have L : Labelled first.toInt (slice log first.toInt (rs ++ x.msgs).length) (rs ++ x.msgs) := by
      rw [List.length_append, slice_add _ h0]
      exact i1.append k3
    refine ⟨L, ?_⟩
    have hfl : first.toInt + (rs ++ x.msgs).length ≤ log.length ∨ (rs ++ x.msgs).length = 0 := by
      have := L.1
      unfold slice at this
      rw [List.length_take, List.length_drop] at this
      omega
    generalize hall : rs ++ x.msgs = all at *
    unfold nextOffset
    cases hg : all.getLast? with
    | none =>
      rw [List.getLast?_eq_none_iff] at hg
      subst hg
      simp
    | some m =>
      have hne : all ≠ [] := by rintro rfl; cases hg
      have hpos : 0 < all.length := List.length_pos_iff.2 hne
      rw [List.getLast?_eq_getElem?] at hg
      have hlt : all.length - 1 < (slice log first.toInt all.length).length := by rw [← L.1]; omega
      have := (L.2 (all.length - 1) _ m (List.getElem?_eq_getElem hlt) hg).1
      dsimp only
      rw [this]
      have e2 : BitVec.ofInt 64 (first.toInt + ((all.length - 1 : Nat) : Int)) + 1 = BitVec.ofInt 64 (first.toInt + all.length) := by
        rw [show (1 : I64) = BitVec.ofInt 64 1 from rfl, ← BitVec.ofInt_add]
        congr 1
        omega
      rw [e2, BitVec.toInt_ofInt, Int.bmod_eq_of_le] <;> omega

/-! ### Under a fair scheduler -/

/-- A consumer that fetches for ever on connection `c`: its `i`-th Fetch is message `idx i` of the client, and asks from the offset after the last of the messages in the responses to
the earlier ones. `ms i` are the messages that it reads in the response when it gets it. -/
structure Consuming (es : Nat → NEv) (c : Nat) (t : Bytes) (p : I32) (first : I64) (idx : Nat → Nat) (ms : Nat → List MessageV1) : Prop where
  later : ∀ i, idx i < idx (i + 1)
  asks : ∀ i, ∃ (n : Nat) (msg : Bytes) (q : FetchRequest) (corr : I32) (client : Option Bytes) (j : Nat) (maxBytes : I32), (frames (asked c (upTo es n)))[idx i]? = some msg ∧ Accepted (.fetch q) corr client msg ∧ FitsBuffer (.fetch q) corr client ∧
    (∀ t ∈ q.topics, ∃ p, t.partitions = [p]) ∧ q.topics[j]? = some ⟨t, [⟨p, nextOffset first ((List.range i).flatMap ms), maxBytes⟩]⟩ ∧
    ∀ (n : Nat) (r b : Bytes) (y : List (Bytes × List Client.FetchedPartition)) (fp : Client.FetchedPartition), (frames (got c (upTo es n)))[idx i]? = some r → Framed b [r] → Client.response Client.fetch b = some ((corr, 0, y), []) → y[j]? = some (t, [fp]) → ms i = fp.messages

/-- The first `k` fetches. -/
def pollsUpTo (c : Nat) (idx : Nat → Nat) (ms : Nat → List MessageV1) (k : Nat) : List Poll := (List.range k).map fun i => ⟨c, idx i, ms i⟩

theorem pollMessages_upTo (c : Nat) (idx : Nat → Nat) (ms : Nat → List MessageV1) (k : Nat) : pollMessages (pollsUpTo c idx ms k) = (List.range k).flatMap ms := by
  unfold pollMessages pollsUpTo
  rw [List.flatMap_map]

variable {sv : Server} {clock : Int} {ns : Nat → Net} {es : Nat → NEv}

theorem Poll.Seen.mono {a b : List NEv} {t : Bytes} {p : I32} {o : I64} {x : Poll} (h : x.Seen a t p o) : x.Seen (a ++ b) t p o := by
  obtain ⟨hm, ha, hb, hone, hq, hr, hl, hf, hd, hy, hms⟩ := h
  have up : ∀ {s s' : Bytes} {i : Nat} {m : Bytes}, (frames s)[i]? = some m → (frames (s ++ s'))[i]? = some m := by
    intro s s' i m h
    obtain ⟨z, hz⟩ := frames_append s s'
    rw [← hz, List.getElem?_append_left (List.getElem?_eq_some_iff.1 h).1, h]
  exact ⟨by rw [asked_append]; exact up hm, ha, hb, hone, hq, by rw [got_append]; exact up hr, hl, hf, hd, hy, hms⟩

theorem Polled.last {tr : List NEv} {t : Bytes} {p : I32} {first : I64} {ps : List Poll} {x : Poll} (h : Polled tr t p first (ps ++ [x])) :
    x.Seen tr t p (nextOffset first (pollMessages ps)) := by
  generalize e : ps ++ [x] = l at h
  cases h with
  | none => simp at e
  | more h hx =>
    obtain ⟨rfl, e2⟩ := List.append_inj' e rfl
    cases e2
    exact hx

theorem Polled.mono {a b : List NEv} {t : Bytes} {p : I32} {first : I64} {ps : List Poll} (h : Polled a t p first ps) : Polled (a ++ b) t p first ps := by
  induction h with
  | none => exact .none
  | more _ hx ih => exact .more ih hx.mono

/-- **C109**, progress: each Fetch of the consumer is answered. (With `C109`: what it has received is the log from `first` on.) -/
theorem C109_progress (h : NetEndless sv clock ns es F) {c : Nat} (w : Working ns es c) (hr : RoomyOn (sysOf ns) (evOf es) c) (hs : BelowLimit es c)
    (hlen : ∀ n (i : Nat) r, (frames (got c (upTo es n)))[i]? = some r → r.length + 4 < 2 ^ 31) (hroom : ∀ n t p, ∀ x ∈ ((ns n).sys.view 0).log t p, wireSize x < 2 ^ 31)
    {t : Bytes} {p : I32} {first : I64} {idx : Nat → Nat} {ms : Nat → List MessageV1} (hc : Consuming es c t p first idx ms) (k : Nat) (hF : F (.conn c) := by first | exact trivial | assumption) :
    ∃ n, Polled (upTo es n) t p first (pollsUpTo c idx ms k) := by
  induction k with
  | zero => exact ⟨0, .none⟩
  | succ k ih =>
    obtain ⟨n0, i1⟩ := ih
    obtain ⟨n, msg, q, corr, client, j, maxBytes, a1, a2, a3, a4, a5, a6⟩ := hc.asks k
    have more : ∀ N, n ≤ N → (frames (asked c (upTo es N)))[idx k]? = some msg := by
      intro N hN
      obtain ⟨l, hl⟩ := upTo_le (es := es) hN
      obtain ⟨x, hx⟩ := frames_append (asked c (upTo es n)) (asked c l)
      rw [hl, asked_append, ← hx, List.getElem?_append_left (List.getElem?_eq_some_iff.1 a1).1, a1]
    obtain ⟨m, r, m1, m2⟩ := w.replied h hr hs (more (max n n0) (Nat.le_max_left ..))
    have hn : n ≤ m := by omega
    have hn0 : n0 ≤ m := by omega
    obtain ⟨b, y, f1, f2, f3⟩ := fetched_at (.nil _) (h.run m) (by rw [List.nil_append, ← past_upTo]; exact w.smallReplies h hr hs m) (Nat.zero_le _) (more m hn) a2 a3 a4 m2 (hlen m _ r m2) (hroom m)
    have hj : j < y.length := by rw [← f3.length_eq]; exact (List.getElem?_eq_some_iff.1 a5).1
    obtain ⟨f4, f5⟩ := forall2_at f3 a5 (List.getElem?_eq_getElem hj)
    have hy : ∃ fp, y[j]? = some (t, [fp]) := by
      rw [List.getElem?_eq_getElem hj]
      generalize y[j] = z at f4 f5
      obtain ⟨z1, z2⟩ := z
      cases f4
      cases f5 with
      | cons _ f6 => cases f6; exact ⟨_, rfl⟩
    obtain ⟨fp, hy⟩ := hy
    have e := a6 m r b y fp m2 f1 f2 hy
    refine ⟨m, ?_⟩
    unfold pollsUpTo
    rw [List.range_succ, List.map_append]
    obtain ⟨l, hl⟩ := upTo_le (es := es) hn0
    refine .more (by rw [hl]; exact i1.mono) ?_
    have e3 := pollMessages_upTo c idx ms k
    unfold pollsUpTo at e3
    rw [e3]
    exact .mk (more m hn) a2 a3 a4 a5 m2 (hlen m _ r m2) f1 f2 hy e.symm

/-- **C109**, every record: once a call of `SimplePost` or `ExtendedPost` for the partition has returned, the consumer receives the record, at its place: there are as many messages before it
as there are records from `first` up to it. -/
theorem C109_all (h : NetEndless sv clock ns es F) {sa : Sys} {a s : Nat} {call : PostCall} {tc : List SEv} (hcall : CallRun sa a call.call tc (ns s).sys) (hF : ∀ c, Working ns es c → F (.conn c) := by first | exact fun _ _ => trivial | assumption) :
    ∃ (pos : Nat) (rec : Record), call.Matches sa.clock (ns s).sys.clock rec ∧ ((sa.view 0).log call.topic (BitVec.ofInt 32 call.partition)).length ≤ pos ∧
      ∀ (c : Nat) (first : I64) (idx : Nat → Nat) (ms : Nat → List MessageV1), Working ns es c → RoomyOn (sysOf ns) (evOf es) c → BelowLimit es c →
        (∀ n (i : Nat) r, (frames (got c (upTo es n)))[i]? = some r → r.length + 4 < 2 ^ 31) → (∀ n t p, ∀ x ∈ ((ns n).sys.view 0).log t p, wireSize x < 2 ^ 31) →
        Consuming es c call.topic (BitVec.ofInt 32 call.partition) first idx ms → 0 ≤ first.toInt → first.toInt ≤ pos →
        (∀ n, first.toInt + (((ns n).sys.view 0).log call.topic (BitVec.ofInt 32 call.partition)).length < 2 ^ 63) →
        ∃ k m, ((List.range k).flatMap ms)[pos - first.toInt.toNat]? = some m ∧ m.offset = BitVec.ofNat 64 pos ∧ m.timestamp = rec.timestamp ∧ m.key = call.key ∧ m.value = call.value := by
  obtain ⟨pos, rec, p1, p2, p3, _⟩ := C60_posts_partial hcall
  refine ⟨pos, rec, p1, p2, ?_⟩
  intro c first idx ms w hr hs hlen hroom hc h0 hfp hsmall
  have hFc := hF c w
  have hidx : ∀ i, i ≤ idx i := by
    intro i
    induction i with
    | zero => exact Nat.zero_le _
    | succ i ih => have := hc.later i; omega
  generalize hK : (frames (asked c (upTo es s))).length = K
  obtain ⟨n0, hP⟩ := C109_progress h w hr hs hlen hroom hc K
  obtain ⟨n1, hP1⟩ := C109_progress h w hr hs hlen hroom hc (K + 1)
  -- late enough for all
  obtain ⟨N, N0, N1, N2⟩ : ∃ N, n0 ≤ N ∧ n1 ≤ N ∧ s ≤ N := ⟨max n0 (max n1 s), by omega, by omega, by omega⟩
  obtain ⟨l0, hl0⟩ := upTo_le (es := es) N0
  obtain ⟨l1, hl1⟩ := upTo_le (es := es) N1
  obtain ⟨l2, hl2, hrun⟩ := h.run_from N2
  have hP : Polled (upTo es N) call.topic (BitVec.ofInt 32 call.partition) first (pollsUpTo c idx ms K) := by rw [hl0]; exact hP.mono
  have hP1 : Polled (upTo es N) call.topic (BitVec.ofInt 32 call.partition) first (pollsUpTo c idx ms (K + 1)) := by rw [hl1]; exact hP1.mono
  have hsm := w.smallReplies h hr hs N
  rw [past_upTo] at hsm
  have conn : ∀ k, ∀ x ∈ pollsUpTo c idx ms k, x.conn = c := by
    intro k x hx
    obtain ⟨_, _, rfl⟩ := List.mem_map.1 hx
    rfl
  obtain ⟨_, q2⟩ := C109 (h.run N) (hroom N) hP (fun x hx => by rw [conn K x hx]; exact hsm) h0 (hsmall N)
  obtain ⟨q3, _⟩ := C109 (h.run N) (hroom N) hP1 (fun x hx => by rw [conn _ x hx]; exact hsm) h0 (hsmall N)
  rw [pollMessages_upTo] at q2 q3
  have e1 : pollsUpTo c idx ms (K + 1) = pollsUpTo c idx ms K ++ [⟨c, idx K, ms K⟩] := by unfold pollsUpTo; rw [List.range_succ, List.map_append]; rfl
  rw [e1] at hP1
  have hx := hP1.last
  rw [pollMessages_upTo] at hx
  obtain ⟨hm, ha, hb, hone, hq, hr', hl, hf, hd, hy, hms⟩ := hx
  rw [hl2] at hm hr' hsm
  obtain ⟨b', y', g1, g2, g3⟩ := fetched_at (h.run s) hrun hsm (by rw [hK]; exact hidx K) hm ha hb hone hr' hl (hroom N)
  cases framed_unique hf g1
  rw [hd] at g2; cases g2
  obtain ⟨_, g4⟩ := forall2_at g3 hq hy
  cases g4 with
  | cons g4 _ =>
  obtain ⟨_, _, k, k1, k2, k3, _, _⟩ := g4
  dsimp only at k1 k2 k3 hms
  rw [hms, q2] at k3
  have hkeep := (C46_kept hrun.sys).1 call.topic (BitVec.ofInt 32 call.partition)
  have p4 : (((ns N).sys.view 0).log call.topic (BitVec.ofInt 32 call.partition))[pos]? = some rec := by
    rw [hkeep, List.getElem?_append_left (List.getElem?_eq_some_iff.1 p3).1, p3]
  have hposlt : pos < (((ns s).sys.view 0).log call.topic (BitVec.ofInt 32 call.partition)).length := (List.getElem?_eq_some_iff.1 p3).1
  have e2 : (List.range (K + 1)).flatMap ms = (List.range K).flatMap ms ++ ms K := by rw [List.range_succ]; simp
  have hmsK := k3.1
  rw [List.length_drop, List.length_take] at hmsK
  have hcount : pos - first.toInt.toNat < ((List.range (K + 1)).flatMap ms).length := by rw [e2, List.length_append]; omega
  refine ⟨K + 1, _, List.getElem?_eq_getElem hcount, ?_⟩
  have hlog : (slice (((ns N).sys.view 0).log call.topic (BitVec.ofInt 32 call.partition)) first.toInt ((List.range (K + 1)).flatMap ms).length)[pos - first.toInt.toNat]? = some rec := by
    unfold slice
    rw [List.getElem?_take, if_pos hcount, List.getElem?_drop, show first.toInt.toNat + (pos - first.toInt.toNat) = pos by omega]
    exact p4
  obtain ⟨z1, z2, z3, z4, _⟩ := q3.2 _ _ _ hlog (List.getElem?_eq_getElem hcount)
  refine ⟨?_, z2, z3.trans p1.2.1, z4.trans p1.2.2.1⟩
  rw [z1, show first.toInt + ((pos - first.toInt.toNat : Nat) : Int) = (pos : Int) by omega]
  rfl

end KM.Props
