import Verif.FetchRun
import Verif.Props.Offsets
/-
Properties C32-C37 and C52 (Fetch), under arbitrary interleaving (in particular while records are posted).
-/
namespace KM.Props
open KM

/-- The messages are these records, unaltered and labelled with consecutive offsets from `start`. -/
def Labelled (start : Int) (recs : List Record) (msgs : List MessageV1) : Prop :=
  msgs.length = recs.length ∧ ∀ (i : Nat) (r : Record) (m : MessageV1), recs[i]? = some r → msgs[i]? = some m →
    m.offset = BitVec.ofInt 64 (start + i) ∧ m.timestamp = r.timestamp ∧ m.key = r.key ∧ m.value = r.value ∧ m.magicByte = 1 ∧ m.attributes = 0

/-- The answer for a requested partition: it was not found and nothing is returned; or the messages are the records that were there, at
some moment of the call, from the requested offset on, and HighWatermark is the offset after the last of them. -/
def FetchAnswered (w : World) (tr : List Ev) (w' : World) (src : Bytes × FetchPartition) (rp : FetchRespPartition) : Prop :=
  ((Moment w tr w' fun wm => ¬ wm.hasPartition src.1 src.2.partition) ∧ rp.records.msgs = [] ∧ rp.highWatermark = src.2.fetchOffset) ∨
  (0 ≤ src.2.fetchOffset.toInt ∧ Moment w tr w' fun wm => wm.hasPartition src.1 src.2.partition ∧
    Labelled src.2.fetchOffset.toInt ((wm.log src.1 src.2.partition).drop src.2.fetchOffset.toInt.toNat) rp.records.msgs ∧
    rp.highWatermark = BitVec.ofInt 64 (src.2.fetchOffset.toInt + rp.records.msgs.length))

theorem labelled_mapIdx (off : I64) (recs : List Record) :
    Labelled off.toInt recs (recs.mapIdx fun i r => MessageV1.ofRecord (off + BitVec.ofNat 64 i) r) := by
  refine ⟨by simp, ?_⟩
  intro i r m hr hm
  rw [List.getElem?_mapIdx, hr] at hm
  cases hm
  refine ⟨?_, rfl, rfl, rfl, rfl, rfl⟩
  show off + BitVec.ofNat 64 i = BitVec.ofInt 64 (off.toInt + i)
  rw [BitVec.ofInt_add, BitVec.ofInt_toInt, BitVec.ofInt_natCast]

/-- The part of the response built from one fetch data. -/
def FetchRespPartition.of (par : FetchPartition) (fd : FetchData) : FetchRespPartition :=
  ⟨par.partition, 0, BitVec.ofInt 64 fd.offset, fd.ms⟩

theorem _root_.KM.Fetched.answered {w w' : World} {tr : List Ev} {src : Bytes × FetchPartition} {fd : FetchData} (h : Fetched w tr w' src fd)
    (par : FetchPartition) : FetchAnswered w tr w' src (FetchRespPartition.of par fd) := by
  rcases h with ⟨h1, h2, h3, h4⟩ | ⟨h0, hm⟩
  · exact .inl ⟨h1, h3, by simp [FetchRespPartition.of, h2, BitVec.ofInt_toInt]⟩
  · refine .inr ⟨h0, hm.mono ?_⟩
    rintro wm ⟨h1, h2, h3, h4, h5⟩
    refine ⟨h1, ?_, ?_⟩
    · show Labelled _ _ fd.ms.msgs
      rw [h3]; exact labelled_mapIdx _ _
    · show BitVec.ofInt 64 fd.offset = BitVec.ofInt 64 (_ + (fd.ms.msgs.length : Int))
      rw [h2, h3, List.length_mapIdx]

/-- The response of topic `n` is built from the fetch data number `n`. -/
theorem fetchRespond_eq {ts : List FetchTopic} {fds : List FetchData} {rs : List FetchRespTopic} (h : fetchRespond ts fds = some rs) :
    List.Forall₂ (fun (x : FetchTopic × Nat) (rt : FetchRespTopic) => ∃ fd, fds[x.2]? = some fd ∧ rt.topic = x.1.topic ∧
      rt.partitions = x.1.partitions.map fun par => FetchRespPartition.of par fd) ts.zipIdx rs := by
  induction ts generalizing fds rs with
  | nil => cases h; exact .nil
  | cons t ts ih =>
    cases fds with
    | nil => cases h
    | cons fd fds =>
      simp only [fetchRespond, bind, Option.bind] at h
      cases hr : fetchRespond ts fds with
      | none => rw [hr] at h; cases h
      | some rest =>
        rw [hr] at h; cases h
        rw [List.zipIdx_cons]
        refine .cons ⟨fd, rfl, rfl, rfl⟩ ?_
        have := ih hr
        rw [List.zipIdx_eq_zip_range'] at this ⊢
        rw [show List.range' (0 + 1) ts.length = (List.range' 0 ts.length).map (· + 1) by rw [← List.range'_succ_left]]
        rw [List.zip_map_right, List.forall₂_map_left_iff]
        exact this

theorem forall₂_get {α β : Type} {R : α → β → Prop} {l : List α} {l' : List β} (h : List.Forall₂ R l l') {i : Nat} {b : β}
    (hb : l'[i]? = some b) : ∃ a, l[i]? = some a ∧ R a b := by
  induction h generalizing i with
  | nil => cases hb
  | cons h1 _ ih =>
    cases i with
    | zero => cases hb; exact ⟨_, rfl, h1⟩
    | succ i => exact ih hb

theorem mem_zipIdx_get {α : Type} {l : List α} {x : α × Nat} (h : x ∈ l.zipIdx) : l[x.2]? = some x.1 := by
  obtain ⟨a, i⟩ := x
  exact List.mem_zipIdx_iff_getElem?.1 h

/-- C35, exactly what the code does: every partition listed under the topic number `n` of the request is answered with the records and
the HighWatermark of the `n`-th partition of the whole request (counted across topics). -/
theorem C35_exact {q : FetchRequest} {resp : FetchResponse} {w w' : World} {tr : List Ev} (h : Exec w (fetch q) tr w' (.ret resp)) :
    List.Forall₂ (fun (x : FetchTopic × Nat) (rt : FetchRespTopic) => rt.topic = x.1.topic ∧
      ∃ src, q.named[x.2]? = some src ∧
        List.Forall₂ (fun (par : FetchPartition) (rp : FetchRespPartition) => rp.partitionIndex = par.partition ∧ rp.errorCode = 0 ∧
          FetchAnswered w tr w' src rp) x.1.partitions rt.partitions) q.topics.zipIdx resp.responses := by
  obtain ⟨fds, h1, h2, _⟩ := fetch_ret h
  refine List.Forall₂.imp ?_ (fetchRespond_eq h2)
  rintro ⟨qt, n⟩ rt ⟨fd, hfd, e1, e2⟩
  obtain ⟨src, hsrc, hf⟩ := forall₂_get h1 hfd
  refine ⟨e1, src, hsrc, ?_⟩
  rw [e2, List.forall₂_map_right_iff]
  exact List.forall₂_same.2 fun par _ => ⟨rfl, rfl, Fetched.answered hf par⟩

theorem named_single {ts : List FetchTopic} (h : ∀ t ∈ ts, ∃ p, t.partitions = [p]) {n : Nat} {t : FetchTopic} (hn : ts[n]? = some t) :
    ∃ p, t.partitions = [p] ∧ (ts.flatMap fun t => t.partitions.map fun p => (t.topic, p))[n]? = some (t.topic, p) := by
  induction ts generalizing n with
  | nil => cases hn
  | cons t0 ts ih =>
    obtain ⟨p0, hp0⟩ := h t0 (List.mem_cons_self ..)
    rw [List.flatMap_cons, hp0]
    cases n with
    | zero => cases hn; exact ⟨p0, hp0, rfl⟩
    | succ n =>
      obtain ⟨p, h1, h2⟩ := ih (fun t ht => h t (List.mem_cons_of_mem _ ht)) hn
      exact ⟨p, h1, h2⟩

/-- C35 for requests with one partition per topic: every entry carries the records and HighWatermark of its own topic and partition.
Missing for the full statement: requests with several partitions under a topic, for which it is false (`C35_false`, `C35_exact`). -/
theorem C35_own_records_partial {q : FetchRequest} {resp : FetchResponse} {w w' : World} {tr : List Ev} (h : Exec w (fetch q) tr w' (.ret resp))
    (single : ∀ t ∈ q.topics, ∃ p, t.partitions = [p]) :
    List.Forall₂ (fun (qt : FetchTopic) (rt : FetchRespTopic) => rt.topic = qt.topic ∧
      List.Forall₂ (fun (par : FetchPartition) (rp : FetchRespPartition) => rp.partitionIndex = par.partition ∧ rp.errorCode = 0 ∧
        FetchAnswered w tr w' (qt.topic, par) rp) qt.partitions rt.partitions) q.topics resp.responses := by
  have h0 := C35_exact h
  have hz : q.topics = q.topics.zipIdx.map Prod.fst := by simp
  rw [hz, List.forall₂_map_left_iff]
  have key : ∀ {l : List (FetchTopic × Nat)} {rs : List FetchRespTopic}, (∀ x ∈ l, x ∈ q.topics.zipIdx) →
      List.Forall₂ (fun (x : FetchTopic × Nat) (rt : FetchRespTopic) => rt.topic = x.1.topic ∧
        ∃ src, q.named[x.2]? = some src ∧
          List.Forall₂ (fun (par : FetchPartition) (rp : FetchRespPartition) => rp.partitionIndex = par.partition ∧ rp.errorCode = 0 ∧
            FetchAnswered w tr w' src rp) x.1.partitions rt.partitions) l rs →
      List.Forall₂ (fun (x : FetchTopic × Nat) (rt : FetchRespTopic) => rt.topic = x.1.topic ∧
        List.Forall₂ (fun (par : FetchPartition) (rp : FetchRespPartition) => rp.partitionIndex = par.partition ∧ rp.errorCode = 0 ∧
          FetchAnswered w tr w' (x.1.topic, par) rp) x.1.partitions rt.partitions) l rs := by
    intro l rs hl hf
    induction hf with
    | nil => exact .nil
    | @cons x rt l rs hx _ ih =>
      refine .cons ?_ (ih fun y hy => hl y (List.mem_cons_of_mem _ hy))
      obtain ⟨e1, src, e2, e3⟩ := hx
      obtain ⟨p, e4, e5⟩ := named_single single (mem_zipIdx_get (hl x (List.mem_cons_self ..)))
      have e6 : q.named[x.2]? = some (x.1.topic, p) := e5
      rw [e6] at e2; cases e2
      refine ⟨e1, ?_⟩
      rw [e4] at e3 ⊢
      generalize rt.partitions = ps at e3 ⊢
      cases e3 with
      | cons e7 e8 => cases e8; exact .cons e7 .nil
  exact key (fun _ h => h) h0

/-- The records of a log from an offset on, up to the end of the given messages. -/
def slice (log : List Record) (start : Int) (n : Nat) : List Record := (log.drop start.toNat).take n

theorem slice_of_steps {w w' : World} {tr : List Ev} (h : Steps w tr w') {t : Bytes} {p : I32} {start : Int} {msgs : List MessageV1}
    (hl : Labelled start ((w.log t p).drop start.toNat) msgs) : Labelled start (slice (w'.log t p) start msgs.length) msgs := by
  unfold slice
  have : ((w'.log t p).drop start.toNat).take msgs.length = (w.log t p).drop start.toNat := by
    rw [hl.1, h.log, List.drop_append, List.take_append_of_le_length (Nat.le_refl _), List.take_length]
  rw [this]; exact hl

/-- C32: for a request with one partition per topic, the messages returned for a partition are consecutive records of that partition's
log from the requested offset, unaltered, labelled with their offsets. (The log is that at the end of the call; it only grows, see C20.) -/
theorem C32_fetch_unaltered {q : FetchRequest} {resp : FetchResponse} {w w' : World} {tr : List Ev} (h : Exec w (fetch q) tr w' (.ret resp))
    (single : ∀ t ∈ q.topics, ∃ p, t.partitions = [p]) :
    List.Forall₂ (fun (qt : FetchTopic) (rt : FetchRespTopic) => rt.topic = qt.topic ∧
      List.Forall₂ (fun (par : FetchPartition) (rp : FetchRespPartition) => rp.partitionIndex = par.partition ∧
        (rp.records.msgs = [] ∨ 0 ≤ par.fetchOffset.toInt ∧
          Labelled par.fetchOffset.toInt (slice (w'.log qt.topic par.partition) par.fetchOffset.toInt rp.records.msgs.length) rp.records.msgs))
        qt.partitions rt.partitions) q.topics resp.responses := by
  refine List.Forall₂.imp ?_ (C35_own_records_partial h single)
  rintro qt rt ⟨h1, h2⟩
  refine ⟨h1, List.Forall₂.imp ?_ h2⟩
  rintro par rp ⟨h3, _, h4⟩
  refine ⟨h3, ?_⟩
  rcases h4 with ⟨_, h5, _⟩ | ⟨h0, t0, t1, wm, rfl, s0, s1, _, h5, _⟩
  · exact .inl h5
  · exact .inr ⟨h0, slice_of_steps s1 h5⟩

/-- C34, one call: if the partition exists when Fetch is called, everything it held at that time from the requested offset on is
delivered, and HighWatermark is the offset after the last delivered record. Missing for the full statement: requests with several partitions under
a topic, for which it is false (`C34_false`). -/
theorem C34_delivers_everything_partial {q : FetchRequest} {resp : FetchResponse} {w w' : World} {tr : List Ev} (h : Exec w (fetch q) tr w' (.ret resp))
    (single : ∀ t ∈ q.topics, ∃ p, t.partitions = [p]) :
    List.Forall₂ (fun (qt : FetchTopic) (rt : FetchRespTopic) => List.Forall₂ (fun (par : FetchPartition) (rp : FetchRespPartition) =>
        w.hasPartition qt.topic par.partition →
          (w.log qt.topic par.partition).length ≤ par.fetchOffset.toInt + rp.records.msgs.length ∧
          Labelled par.fetchOffset.toInt (slice (w'.log qt.topic par.partition) par.fetchOffset.toInt rp.records.msgs.length) rp.records.msgs ∧
          rp.highWatermark = BitVec.ofInt 64 (par.fetchOffset.toInt + rp.records.msgs.length))
        qt.partitions rt.partitions) q.topics resp.responses := by
  refine List.Forall₂.imp ?_ (C35_own_records_partial h single)
  rintro qt rt ⟨h1, h2⟩
  refine List.Forall₂.imp ?_ h2
  rintro par rp ⟨h3, _, h4⟩ hp
  rcases h4 with ⟨⟨t0, t1, wm, rfl, s0, s1, hn⟩, _⟩ | ⟨h0, t0, t1, wm, rfl, s0, s1, _, h5, h6⟩
  · exact absurd (s0.hasPartition hp) hn
  · refine ⟨?_, slice_of_steps s1 h5, h6⟩
    have := h5.1
    dsimp only at this h0
    rw [this, List.length_drop, s0.log, List.length_append]
    omega

/-! ### C33 Sizes -/

/-- Number of bytes of a record in the wire format of message set version 1: offset 8, size 4, CRC 4, magic 1, attributes 1, timestamp 8,
key and value each with a 4 byte length. -/
def wireSize (r : Record) : Nat := 34 + (r.key.getD []).length + (r.value.getD []).length

theorem recSize_eq {r : Record} (h : wireSize r < 2 ^ 31) : recSize r = wireSize r := by
  unfold recSize
  exact toInt_ofNat_small 32 _ (by decide) h

theorem encodeBytes_length (b : Option Bytes) : (encodeBytes b).length = 4 + (b.getD []).length := by
  cases b <;> simp [encodeBytes, encodeNullableBytes, encodeInt32, encodeUint32]

theorem encodeMessageV1_length (off : I64) (r : Record) : (encodeMessageV1 (MessageV1.ofRecord off r)).length = wireSize r := by
  simp only [encodeMessageV1, List.length_append, encodeBytes_length]
  simp [encodeInt64, encodeInt32, encodeInt8, MessageV1.ofRecord, wireSize]
  omega

theorem flatMap_length {recs : List Record} (f : Nat → I64) :
    ((recs.mapIdx fun i r => MessageV1.ofRecord (f i) r).flatMap encodeMessageV1).length = (recs.map wireSize).sum := by
  induction recs generalizing f with
  | nil => rfl
  | cons r rs ih =>
    rw [List.mapIdx_cons, List.flatMap_cons, List.length_append, encodeMessageV1_length, ih fun i => f (i + 1)]
    simp

theorem recSize_sum {recs : List Record} (h : ∀ r ∈ recs, wireSize r < 2 ^ 31) : (recs.map recSize).sum = ((recs.map wireSize).sum : Int) := by
  induction recs with
  | nil => rfl
  | cons r rs ih =>
    simp only [List.map_cons, List.sum_cons]
    rw [recSize_eq (h r (List.mem_cons_self ..)), ih fun r hr => h r (List.mem_cons_of_mem _ hr)]
    simp

theorem mem_drop_bounds {wm w' : World} {tr : List Ev} {t : Bytes} {p : I32} (h : Steps wm tr w') {n : Nat}
    (hs : ∀ r ∈ w'.log t p, wireSize r < 2 ^ 31) : ∀ r ∈ (wm.log t p).drop n, wireSize r < 2 ^ 31 := by
  intro r hr
  refine hs r ?_
  rw [h.log]
  exact List.mem_append_left _ (List.mem_of_mem_drop hr)

theorem _root_.KM.Fetched.sizes {w w' : World} {tr : List Ev} {src : Bytes × FetchPartition} {fd : FetchData} (h : Fetched w tr w' src fd)
    (hs : ∀ r ∈ w'.log src.1 src.2.partition, wireSize r < 2 ^ 31) :
    ∃ body : Bytes, encodeMessageSetV1 fd.ms = encodeInt32 (BitVec.ofNat 32 body.length) ++ body ∧ body.length < 2 ^ 31 ∧
      body.length ≤ max 0 src.2.maxBytes.toInt := by
  rcases h with ⟨_, _, h3, h4⟩ | ⟨h0, t0, t1, wm, rfl, s0, s1, _, h2, h3, h4, h5⟩
  · exact ⟨[], by simp [encodeMessageSetV1, h3, h4], by decide, by simp; omega⟩
  · have hb := mem_drop_bounds s1 hs (n := src.2.fetchOffset.toInt.toNat)
    rw [recSize_sum hb] at h4
    have hmax : src.2.maxBytes.toInt < 2 ^ 31 := by
      have := BitVec.toInt_lt (x := src.2.maxBytes); simpa using this
    refine ⟨fd.ms.msgs.flatMap encodeMessageV1, ?_, ?_, ?_⟩
    · unfold encodeMessageSetV1
      rw [h4, BitVec.ofInt_natCast, h3, flatMap_length]
    · rw [h3, flatMap_length]
      rcases h5 with h5 | h5
      · rw [h5]; decide
      · rw [h4] at h5; omega
    · rw [h3, flatMap_length]
      rcases h5 with h5 | h5
      · rw [h5]; simp; omega
      · rw [h4] at h5; omega

/-- C33, every request: as long as no record of the partitions is 2 GiB or more, the record set written for a requested partition is a 4 byte length followed by exactly that many
bytes. Their number does not exceed the maximum of the partition they are taken from, which for the topic number `n` of the request is the `n`-th partition of the whole request
(nothing is returned for a negative maximum). -/
theorem C33_exact {q : FetchRequest} {resp : FetchResponse} {w w' : World} {tr : List Ev} (h : Exec w (fetch q) tr w' (.ret resp))
    (hs : ∀ t p, ∀ r ∈ w'.log t p, wireSize r < 2 ^ 31) :
    List.Forall₂ (fun (x : FetchTopic × Nat) (rt : FetchRespTopic) => ∃ src, q.named[x.2]? = some src ∧
      List.Forall₂ (fun (_ : FetchPartition) (rp : FetchRespPartition) =>
        ∃ body : Bytes, encodeMessageSetV1 rp.records = encodeInt32 (BitVec.ofNat 32 body.length) ++ body ∧ body.length < 2 ^ 31 ∧
          body.length ≤ max 0 src.2.maxBytes.toInt)
        x.1.partitions rt.partitions) q.topics.zipIdx resp.responses := by
  obtain ⟨fds, h1, h2, _⟩ := fetch_ret h
  refine List.Forall₂.imp ?_ (fetchRespond_eq h2)
  rintro ⟨qt, n⟩ rt ⟨fd, hfd, _, e2⟩
  obtain ⟨src, hsrc, hf⟩ := forall₂_get h1 hfd
  refine ⟨src, hsrc, ?_⟩
  rw [e2, List.forall₂_map_right_iff]
  exact List.forall₂_same.2 fun par _ => Fetched.sizes hf (hs _ _)

/-- C33: as long as no record of the partition is 2 GiB or more, the record set written for a requested partition is a 4 byte length followed
by exactly that many bytes, which do not exceed the requested maximum (nothing is returned for a negative maximum). For requests with one partition per topic. Missing for the
full statement: other requests, for which it is false (`C33_false`; what they get is in `C33_exact`). -/
theorem C33_sizes_partial {q : FetchRequest} {resp : FetchResponse} {w w' : World} {tr : List Ev} (h : Exec w (fetch q) tr w' (.ret resp))
    (single : ∀ t ∈ q.topics, ∃ p, t.partitions = [p]) (hs : ∀ t p, ∀ r ∈ w'.log t p, wireSize r < 2 ^ 31) :
    List.Forall₂ (fun (qt : FetchTopic) (rt : FetchRespTopic) => List.Forall₂ (fun (par : FetchPartition) (rp : FetchRespPartition) =>
        ∃ body : Bytes, encodeMessageSetV1 rp.records = encodeInt32 (BitVec.ofNat 32 body.length) ++ body ∧ body.length < 2 ^ 31 ∧
          body.length ≤ max 0 par.maxBytes.toInt)
        qt.partitions rt.partitions) q.topics resp.responses := by
  obtain ⟨fds, h1, h2, _⟩ := fetch_ret h
  have h0 := fetchRespond_eq h2
  have hz : q.topics = q.topics.zipIdx.map Prod.fst := by simp
  rw [hz, List.forall₂_map_left_iff]
  have key : ∀ {l : List (FetchTopic × Nat)} {rs : List FetchRespTopic}, (∀ x ∈ l, x ∈ q.topics.zipIdx) →
      List.Forall₂ (fun (x : FetchTopic × Nat) (rt : FetchRespTopic) => ∃ fd, fds[x.2]? = some fd ∧ rt.topic = x.1.topic ∧
        rt.partitions = x.1.partitions.map fun par => FetchRespPartition.of par fd) l rs →
      List.Forall₂ (fun (x : FetchTopic × Nat) (rt : FetchRespTopic) => List.Forall₂ (fun (par : FetchPartition) (rp : FetchRespPartition) =>
        ∃ body : Bytes, encodeMessageSetV1 rp.records = encodeInt32 (BitVec.ofNat 32 body.length) ++ body ∧ body.length < 2 ^ 31 ∧
          body.length ≤ max 0 par.maxBytes.toInt) x.1.partitions rt.partitions) l rs := by
    intro l rs hl hf
    induction hf with
    | nil => exact .nil
    | @cons x rt l rs hx _ ih =>
      refine .cons ?_ (ih fun y hy => hl y (List.mem_cons_of_mem _ hy))
      obtain ⟨fd, e2, _, e3⟩ := hx
      obtain ⟨src, hsrc, hfe⟩ := forall₂_get h1 e2
      obtain ⟨p, e4, e5⟩ := named_single single (mem_zipIdx_get (hl x (List.mem_cons_self ..)))
      have e6 : q.named[x.2]? = some (x.1.topic, p) := e5
      rw [e6] at hsrc; cases hsrc
      rw [e3, e4]
      exact .cons (Fetched.sizes hfe (hs _ _)) .nil
  exact key (fun _ h => h) h0

/-! ### C36 Completion -/

/-- C36 fails exactly on what does not fit: when Fetch returns, everything that was in the named partitions (existing at the start) from the
requested offset on fits the limit. So if it does not fit, Fetch never returns, however long it runs and whatever happens meanwhile. -/
theorem C36_oversize_never_returns {q : FetchRequest} {resp : FetchResponse} {w w' : World} {tr : List Ev} {t : Bytes} {par : FetchPartition}
    (hq : (t, par) ∈ q.named) (hp : w.hasPartition t par.partition) (hs : ∀ r ∈ w'.log t par.partition, wireSize r < 2 ^ 31)
    (hbig : max 0 par.maxBytes.toInt < ((((w.log t par.partition).drop par.fetchOffset.toInt.toNat).map wireSize).sum : Nat)) :
    ¬ Exec w (fetch q) tr w' (.ret resp) := by
  intro h
  obtain ⟨fds, h1, h2, _⟩ := fetch_ret h
  obtain ⟨n, hn⟩ := List.getElem?_of_mem hq
  obtain ⟨fd, hfd⟩ : ∃ fd, fds[n]? = some fd := by
    have hl := h1.length_eq
    have := (List.getElem?_eq_some_iff.1 hn).1
    exact ⟨fds[n], List.getElem?_eq_getElem (by omega)⟩
  obtain ⟨src, hsrc, hf⟩ := forall₂_get h1 hfd
  rw [hn] at hsrc; cases hsrc
  rcases hf with ⟨⟨t0, t1, wm, rfl, s0, s1, hno⟩, _⟩ | ⟨h0, t0, t1, wm, rfl, s0, s1, _, h2, h3, h4, h5⟩
  · exact hno (s0.hasPartition hp)
  · have hb := mem_drop_bounds s1 hs (n := par.fetchOffset.toInt.toNat)
    dsimp only at h4 h5 hb
    rw [recSize_sum hb] at h4
    have hle : (((w.log t par.partition).drop par.fetchOffset.toInt.toNat).map wireSize).sum ≤
        (((wm.log t par.partition).drop par.fetchOffset.toInt.toNat).map wireSize).sum := by
      rw [s0.log, List.drop_append, List.map_append, List.sum_append]; omega
    rcases h5 with h5 | h5
    · rw [h5] at hle; simp at hle; simp [hle] at hbig; omega
    · omega

/-! ### C37 Crashes -/

theorem fetchSetup_panic {topics : List FetchTopic} {w w' : World} {tr : List Ev} : ¬ Exec w (fetchSetup topics) tr w' .panic := by
  intro h
  obtain ⟨ft, _, t0, t, wa, _, hx⟩ := forEach_panic (exec_map_panic h)
  obtain ⟨t2, w1, kt, w2, t3, h1, s1, h2, rfl⟩ := exec_act_panic hx
  obtain ⟨par, _, t4, t5, wc, _, hy⟩ := forEach_panic h2
  unfold fetchSetupPartition at hy
  dsimp only at hy
  split at hy
  · obtain ⟨t6, w6, r6, w7, t7, h7, s7, h8, rfl⟩ := exec_act_panic hy
    exact exec_ret_panic h8
  · exact exec_ret_panic hy

theorem fetchRespond_none {ts : List FetchTopic} {fds : List FetchData} (h : fetchRespond ts fds = none) : fds.length < ts.length := by
  induction ts generalizing fds with
  | nil => cases h
  | cons t ts ih =>
    cases fds with
    | nil => simp
    | cons fd fds =>
      simp only [fetchRespond, bind, Option.bind] at h
      cases hr : fetchRespond ts fds with
      | none => have := ih hr; simp; omega
      | some rest => rw [hr] at h; cases h

theorem _root_.KM.FdInv.nonneg {N : Bytes × FetchPartition → Prop} {w : World} {src : Bytes × FetchPartition} {fd : FetchData} (h : FdInv N w src fd)
    (h0 : 0 ≤ src.2.fetchOffset.toInt) : 0 ≤ fd.offset := by
  obtain ⟨_, _, recs, _, h4, _⟩ := h
  omega

/-- C37 for requests whose offsets are not negative and which name at least as many partitions as topics (in particular when every topic
has a partition): Fetch does not crash, whatever happens meanwhile. Missing for the full statement: negative offsets and topics without
partitions, for which it is false (`C37_false_negative_offset`, `C37_false_no_partitions`). -/
theorem C37_no_crash_partial {q : FetchRequest} {w w' : World} {tr : List Ev} (hoff : ∀ x ∈ q.named, 0 ≤ x.2.fetchOffset.toInt)
    (hlen : q.topics.length ≤ q.named.length) : ¬ Exec w (fetch q) tr w' .panic := by
  intro h
  rcases exec_bind_panic h with h | ⟨t1, t2, w1, fds, h1, h2, rfl⟩
  · exact fetchSetup_panic h
  · obtain ⟨t3, w3, r3, w4, t4, h3, s3, h4, rfl⟩ := exec_act_panic h2
    obtain ⟨n, t5, w5, st, t6, h5, rfl, h6⟩ := exec_loop_panic h4
    have i0 := (fetchSetup_ret h1).imp fun _ _ hi => hi.steps (h3.1.append (.cons ⟨true, .now, r3⟩ s3 (.nil _)))
    have i1 := fetchRounds_inv h5 i0
    have hnn : ∀ {l : List FetchData} {srcs : List (Bytes × FetchPartition)} {wx : World}, (∀ x ∈ srcs, x ∈ q.named) →
        List.Forall₂ (FdInv (Missing w t1 w1) wx) srcs l → ∀ fd ∈ l, 0 ≤ fd.offset := by
      intro l srcs wx hl hf
      induction hf with
      | nil => intro fd hfd; cases hfd
      | @cons src fd0 srcs l hi _ ih =>
        intro fd hfd
        rcases List.mem_cons.1 hfd with rfl | hfd
        · exact FdInv.nonneg hi (hoff _ (hl _ (List.mem_cons_self ..)))
        · exact ih (fun y hy => hl y (List.mem_cons_of_mem _ hy)) fd hfd
    rcases h6 with h6 | ⟨b, t7, t8, w2, rfl, h7, h8⟩
    · obtain ⟨fd, h7, h8⟩ := fetchBody_panic h6
      have := hnn (fun _ h => h) i1 fd h7
      omega
    · obtain ⟨t8, w8, fds2, m, t9, hp, hs1, hs2, rfl, rfl, rfl⟩ := fetchBody_ret h7
      have i2 := hp.inv hs1 i1
      cases hf : fetchRespond q.topics b with
      | none =>
        have := fetchRespond_none hf
        have := i2.length_eq
        unfold FetchRequest.named at hlen
        omega
      | some rs => rw [hf] at h8; exact exec_ret_panic h8

/-! ### Concrete cases -/

/-- Two topics; topic [116] has partition 0 with two records (35 bytes each) and partition 1 with one; topic [117] has partition 0 with one. -/
def exFetchWorld : World := (postCalls [⟨[116], 0, none, some [1], some ([], 10000000)⟩, ⟨[116], 0, none, some [2], some ([], 30000000)⟩,
  ⟨[116], 1, some [], some [3], some ([], 40000000)⟩, ⟨[117], 0, none, none, some ([], 50000000)⟩] |>.run (go 16) (World.init 5000000)).2.1

/-- A request as the tests make it: one partition per topic, from offset 1. -/
def exFetch : FetchRequest := ⟨-1, 100, 1, [⟨[116], [⟨0, 1, 1000⟩]⟩, ⟨[117], [⟨0, 0, 1000⟩]⟩]⟩

/-- Example for C32-C35 and C37: the request succeeds; one message for each topic. -/
example : ∃ tr w' m1 m2, Exec exFetchWorld (fetch exFetch) tr w'
      (.ret ⟨0, [⟨[116], [⟨0, 0, 2, ⟨[m1], 2, 35⟩⟩]⟩, ⟨[117], [⟨0, 0, 1, ⟨[m2], 1, 34⟩⟩]⟩]⟩) ∧
    m1.offset = 1 ∧ m1.value = some [2] ∧ m1.timestamp = 30 ∧ m2.value = none ∧
    (∀ t ∈ exFetch.topics, ∃ p, t.partitions = [p]) ∧ (∀ x ∈ exFetch.named, 0 ≤ x.2.fetchOffset.toInt) ∧
    exFetch.topics.length ≤ exFetch.named.length :=
  ⟨_, _, MessageV1.ofRecord 1 ⟨0, 30, none, some [2], []⟩, MessageV1.ofRecord 0 ⟨0, 50, none, none, []⟩, Prog.run_ret (sch := go 20) rfl,
    rfl, rfl, rfl, rfl, by simp [exFetch], by simp [exFetch, FetchRequest.named], by decide⟩

/-- Example with interference: the record at offset 2 is posted by someone else after Fetch has started. -/
example : ∃ tr w' m1 m2, Exec exFetchWorld (fetch ⟨-1, 100, 1, [⟨[116], [⟨0, 1, 1000⟩]⟩]⟩) tr w' (.ret ⟨0, [⟨[116], [⟨0, 0, 3, ⟨[m1, m2], 3, 69⟩⟩]⟩]⟩) ∧
    Spec.posts (effects (others tr)) [116] 0 = [⟨0, 77, none, none, []⟩] :=
  ⟨_, _, MessageV1.ofRecord 1 ⟨0, 30, none, some [2], []⟩, MessageV1.ofRecord 2 ⟨0, 77, none, none, []⟩,
    Prog.run_ret (sch := go 4 ++ .env (.post [116] 0 ⟨0, 77, none, none, []⟩) :: go 16) rfl, by decide⟩

/-- C35 is false: the two partitions of a topic are both answered with the records of the first one. -/
theorem C35_false : ∃ tr w' ms, Exec exFetchWorld (fetch ⟨-1, 100, 1, [⟨[116], [⟨0, 0, 1000⟩, ⟨1, 0, 1000⟩]⟩]⟩) tr w'
      (.ret ⟨0, [⟨[116], [⟨0, 0, 2, ms⟩, ⟨1, 0, 2, ms⟩]⟩]⟩) ∧
    ms.msgs.map (·.value) = [some [1], some [2]] ∧ (w'.log [116] 1).map (·.value) = [some [3]] :=
  ⟨_, _, ⟨[MessageV1.ofRecord 0 ⟨0, 10, none, some [1], []⟩, MessageV1.ofRecord 1 ⟨0, 30, none, some [2], []⟩], 2, 70⟩,
    Prog.run_ret (sch := go 20) rfl, by decide, by decide⟩

/-- C33 is false: of two partitions of a topic, the second is asked for with a maximum of 10 bytes, and answered with a record set of 70 bytes. -/
theorem C33_false : ∃ tr w' ms, Exec exFetchWorld (fetch ⟨-1, 100, 1, [⟨[116], [⟨0, 0, 1000⟩, ⟨1, 1, 10⟩]⟩]⟩) tr w'
      (.ret ⟨0, [⟨[116], [⟨0, 0, 2, ms⟩, ⟨1, 0, 2, ms⟩]⟩]⟩) ∧
    (∀ r ∈ w'.log [116] 0, wireSize r < 2 ^ 31) ∧ (encodeMessageSetV1 ms).length = 4 + 70 :=
  ⟨_, _, ⟨[MessageV1.ofRecord 0 ⟨0, 10, none, some [1], []⟩, MessageV1.ofRecord 1 ⟨0, 30, none, some [2], []⟩], 2, 70⟩,
    Prog.run_ret (sch := go 20) rfl, by decide, by decide⟩

/-- C34 is false: the record of the second partition, which was there all the time, is not delivered; the high watermark of the partition is that of the first one. -/
theorem C34_false : ∃ tr w' ms, Exec exFetchWorld (fetch ⟨-1, 100, 1, [⟨[116], [⟨0, 0, 1000⟩, ⟨1, 0, 1000⟩]⟩]⟩) tr w'
      (.ret ⟨0, [⟨[116], [⟨0, 0, 2, ms⟩, ⟨1, 0, 2, ms⟩]⟩]⟩) ∧
    (exFetchWorld.log [116] 1).map (·.value) = [some [3]] ∧ some [3] ∉ ms.msgs.map (·.value) :=
  ⟨_, _, ⟨[MessageV1.ofRecord 0 ⟨0, 10, none, some [1], []⟩, MessageV1.ofRecord 1 ⟨0, 30, none, some [2], []⟩], 2, 70⟩,
    Prog.run_ret (sch := go 20) rfl, by decide, by decide⟩

/-- C37 is false: a negative offset (on an existing partition, even an empty one) crashes. -/
theorem C37_false_negative_offset : ∃ tr w', Exec exFetchWorld (fetch ⟨-1, 100, 1, [⟨[116], [⟨0, -1, 1000⟩]⟩]⟩) tr w' .panic :=
  ⟨_, _, Prog.run_panic (sch := go 20) rfl⟩

/-- C37 is false: a topic without partitions crashes. -/
theorem C37_false_no_partitions : ∃ tr w', Exec exFetchWorld (fetch ⟨-1, 0, 1, [⟨[116], []⟩]⟩) tr w' .panic :=
  ⟨_, _, Prog.run_panic (sch := go 2 ++ [.env (.tick 10)] ++ go 20) rfl⟩

theorem exFetchWorld_log : exFetchWorld.log [116] 0 = [⟨0, 10, none, some [1], []⟩, ⟨0, 30, none, some [2], []⟩] := by decide

/-- C36 is false: with a limit of 69 bytes for two records of 35 bytes, Fetch never returns (as long as no record of 2 GiB is posted),
whatever the wait time; nor does it crash. -/
theorem C36_false (tr : List Ev) (w' : World) (hs : ∀ r ∈ w'.log [116] 0, wireSize r < 2 ^ 31) :
    (∀ resp, ¬ Exec exFetchWorld (fetch ⟨-1, 100, 1, [⟨[116], [⟨0, 0, 69⟩]⟩]⟩) tr w' (.ret resp)) ∧
    ¬ Exec exFetchWorld (fetch ⟨-1, 100, 1, [⟨[116], [⟨0, 0, 69⟩]⟩]⟩) tr w' .panic := by
  refine ⟨fun resp => C36_oversize_never_returns (t := [116]) (par := ⟨0, 0, 69⟩) (by simp [FetchRequest.named]) (by unfold World.hasPartition; decide) hs ?_,
    C37_no_crash_partial (by simp [FetchRequest.named]) (by simp [FetchRequest.named])⟩
  dsimp only
  rw [exFetchWorld_log]
  decide

end KM.Props
