import Verif.Spec.Client
/-
The response writers of Spec/Protocol.lean and the parsers of Spec/Client.lean fit together.
-/
namespace KM.Spec.Client

/-- The parser reads exactly the bytes `b` to `x`. -/
def Parses {α : Type} (p : Parse α) (b : Bytes) (x : α) : Prop := ∀ rest, p (b ++ rest) = some (x, rest)

theorem Parses.bind {α β : Type} {p : Parse α} {f : α → Parse β} {b b' : Bytes} {x : α} {y : β} (h : Parses p b x) (h' : Parses (f x) b' y) :
    Parses (p >>= f) (b ++ b') y := by
  intro rest
  show (p (b ++ b' ++ rest)).bind (fun (a, s) => f a s) = _
  rw [List.append_assoc, h]
  exact h' rest

theorem Parses.pure {α : Type} (x : α) : Parses (pure x) [] x := fun _ => rfl

theorem Parses.map {α β : Type} {p : Parse α} {b : Bytes} {x : α} (h : Parses p b x) (f : α → β) :
    Parses (do let a ← p; return f a) b (f x) := by
  have := h.bind (f := fun a => Pure.pure (f a)) (Parses.pure (f x))
  rwa [List.append_nil] at this

theorem Parses.whole {α : Type} {p : Parse α} {b : Bytes} {x : α} (h : Parses p b x) : p b = some (x, []) := by
  have := h []
  rwa [List.append_nil] at this

theorem parses_take (b : Bytes) : Parses (take b.length) b b := by
  intro rest
  unfold take
  rw [if_pos (by rw [List.length_append]; omega), List.take_left, List.drop_left]

theorem byte_toNat (n : Nat) : (UInt8.ofNat n).toNat = n % 256 := by simp [UInt8.toNat_ofNat']

theorem parses_int8 (v : I8) : Parses int8 (Spec.int8 v) v := by
  have := (parses_take (Spec.int8 v)).map (fun b => BitVec.ofNat 8 (be b))
  have e : BitVec.ofNat 8 (be (Spec.int8 v)) = v := by
    apply BitVec.eq_of_toNat_eq
    have := v.isLt
    simp only [Spec.int8, be, byte_toNat, List.length_nil, BitVec.toNat_ofNat]
    omega
  rw [e] at this
  exact this

theorem parses_int16 (v : I16) : Parses int16 (Spec.int16 v) v := by
  have := (parses_take (Spec.int16 v)).map (fun b => BitVec.ofNat 16 (be b))
  have e : BitVec.ofNat 16 (be (Spec.int16 v)) = v := by
    apply BitVec.eq_of_toNat_eq
    have := v.isLt
    simp only [Spec.int16, be, byte_toNat, List.length_nil, List.length_cons, BitVec.toNat_ofNat]
    omega
  rw [e] at this
  exact this

theorem parses_int32 (v : I32) : Parses int32 (Spec.int32 v) v := by
  have := (parses_take (Spec.int32 v)).map (fun b => BitVec.ofNat 32 (be b))
  have e : BitVec.ofNat 32 (be (Spec.int32 v)) = v := by
    apply BitVec.eq_of_toNat_eq
    have := v.isLt
    simp only [Spec.int32, be, byte_toNat, List.length_nil, List.length_cons, BitVec.toNat_ofNat]
    omega
  rw [e] at this
  exact this

theorem parses_int64 (v : I64) : Parses int64 (Spec.int64 v) v := by
  have := (parses_take (Spec.int64 v)).map (fun b => BitVec.ofNat 64 (be b))
  have e : BitVec.ofNat 64 (be (Spec.int64 v)) = v := by
    apply BitVec.eq_of_toNat_eq
    have := v.isLt
    simp only [Spec.int64, be, byte_toNat, List.length_nil, List.length_cons, BitVec.toNat_ofNat]
    omega
  rw [e] at this
  exact this

theorem parses_bool (v : Bool) : Parses bool (Spec.bool v) v := by
  have := (parses_take (Spec.bool v)).map (fun b => b != [0])
  have e : (Spec.bool v != [0]) = v := by cases v <;> rfl
  rw [e] at this
  exact this

theorem len16 {n : Nat} (h : n < 2 ^ 15) : ¬ (BitVec.ofNat 16 n).toInt < 0 ∧ (BitVec.ofNat 16 n).toNat = n := by
  have : (BitVec.ofNat 16 n).toNat = n := by rw [BitVec.toNat_ofNat]; omega
  refine ⟨?_, this⟩
  rw [BitVec.toInt_eq_toNat_of_lt (by omega)]; omega

theorem len32 {n : Nat} (h : n < 2 ^ 31) : ¬ (BitVec.ofNat 32 n).toInt < 0 ∧ (BitVec.ofNat 32 n).toNat = n := by
  have : (BitVec.ofNat 32 n).toNat = n := by rw [BitVec.toNat_ofNat]; omega
  refine ⟨?_, this⟩
  rw [BitVec.toInt_eq_toNat_of_lt (by omega)]; omega

theorem parses_str {s : Bytes} (h : ShortStr s) : Parses str (Spec.str s) s := by
  refine (parses_int16 _).bind ?_
  rw [if_neg (len16 h).1, (len16 h).2]
  exact parses_take s

theorem parses_nullableStr {s : Option Bytes} (h : ∀ x ∈ s, ShortStr x) : Parses nullableStr (Spec.nullableStr s) s := by
  cases s with
  | none =>
    have := (parses_int16 (-1)).bind (f := fun n => if n.toInt < 0 then Pure.pure none else do return some (← take n.toNat))
      (b' := []) (y := none) (by rw [if_pos (by decide)]; exact Parses.pure none)
    rw [List.append_nil] at this
    exact this
  | some s =>
    have hs := len16 (h s rfl)
    refine (parses_int16 _).bind ?_
    rw [if_neg hs.1, hs.2]
    exact (parses_take s).map some

theorem parses_bytes {s : Bytes} (h : ShortList s) : Parses bytes (Spec.bytes s) s := by
  refine (parses_int32 _).bind ?_
  rw [if_neg (len32 h).1, (len32 h).2]
  exact parses_take s

theorem parses_nullableBytes {s : Option Bytes} (h : ∀ x ∈ s, ShortList x) : Parses nullableBytes (Spec.nullableBytes s) s := by
  cases s with
  | none =>
    have := (parses_int32 (-1)).bind (f := fun n => if n.toInt < 0 then Pure.pure none else do return some (← take n.toNat))
      (b' := []) (y := none) (by rw [if_pos (by decide)]; exact Parses.pure none)
    rw [List.append_nil] at this
    exact this
  | some s =>
    have hs := len32 (h s rfl)
    refine (parses_int32 _).bind ?_
    rw [if_neg hs.1, hs.2]
    exact (parses_take s).map some

theorem parses_times {α β : Type} {p : Parse β} {f : α → Bytes} {g : α → β} {xs : List α} (h : ∀ x ∈ xs, Parses p (f x) (g x)) :
    Parses (times p xs.length) (xs.flatMap f) (xs.map g) := by
  induction xs with
  | nil => exact Parses.pure _
  | cons x xs ih =>
    rw [List.flatMap_cons]
    refine (h x (List.mem_cons_self ..)).bind ?_
    exact (ih fun y hy => h y (List.mem_cons_of_mem _ hy)).map fun l => g x :: l

theorem parses_array_map {α β : Type} {p : Parse β} {f : α → Bytes} {g : α → β} {xs : List α} (hl : ShortList xs)
    (h : ∀ x ∈ xs, Parses p (f x) (g x)) : Parses (array p) (Spec.array f xs) (xs.map g) := by
  refine (parses_int32 _).bind ?_
  rw [if_neg (len32 hl).1, (len32 hl).2]
  exact parses_times h

theorem parses_array {α : Type} {p : Parse α} {f : α → Bytes} {xs : List α} (hl : ShortList xs) (h : ∀ x ∈ xs, Parses p (f x) x) :
    Parses (array p) (Spec.array f xs) xs := by
  have := parses_array_map (g := id) hl h
  rwa [List.map_id] at this

theorem all_parses {α : Type} {p : Parse α} {f : α → Bytes} {xs : List α} (h : ∀ x ∈ xs, Parses p (f x) x) (hn : ∀ x ∈ xs, f x ≠ [])
    {fuel : Nat} (hf : xs.length ≤ fuel) : all p fuel (xs.flatMap f) = some xs := by
  induction xs generalizing fuel with
  | nil => cases fuel <;> rfl
  | cons x xs ih =>
    cases fuel with
    | zero => simp at hf
    | succ fuel =>
      rw [List.flatMap_cons]
      have hne : f x ++ xs.flatMap f ≠ [] := fun e => hn x (List.mem_cons_self ..) (List.append_eq_nil_iff.1 e).1
      have hx := h x (List.mem_cons_self ..) (xs.flatMap f)
      rw [all]
      · rw [hx]
        simp only [bind, Option.bind]
        rw [ih (fun y hy => h y (List.mem_cons_of_mem _ hy)) (fun y hy => hn y (List.mem_cons_of_mem _ hy)) (by simpa using hf)]
        rfl
      · exact hne

/-- Key and value of a message have a BYTES representation. -/
def ShortMessage (m : MessageV1) : Prop := (∀ x ∈ m.key, ShortList x) ∧ ∀ x ∈ m.value, ShortList x

theorem parses_message {m : MessageV1} (h : ShortMessage m) : Parses message (message1 m) m := by
  simp only [message1, List.append_assoc]
  exact (parses_int64 _).bind <| (parses_int32 _).bind <| (parses_int32 _).bind <| (parses_int8 _).bind <|
    (parses_int8 _).bind <| (parses_int64 _).bind <| (parses_nullableBytes h.1).bind <|
    (parses_nullableBytes h.2).map fun value => { m with value := value }

theorem message1_ne (m : MessageV1) : message1 m ≠ [] := by simp [message1, Spec.int64]

/-- What the client sees of a partition in a Fetch response. -/
def FetchedPartition.of (p : FetchRespPartition) : FetchedPartition :=
  { partition := p.partitionIndex, errorCode := p.errorCode, highWatermark := p.highWatermark, messages := p.records.msgs }

/-- The message set is consistent: its declared size is its size, below 2 GiB. -/
def GoodSet (s : MessageSetV1) : Prop :=
  s.totalSize = ((s.msgs.flatMap message1).length : Int) ∧ s.totalSize < 2 ^ 31 ∧ ∀ m ∈ s.msgs, ShortMessage m

theorem parses_messageSet {s : MessageSetV1} (h : GoodSet s) :
    Parses messageSet (Spec.int32 (BitVec.ofInt 32 s.totalSize) ++ s.msgs.flatMap message1) s.msgs := by
  obtain ⟨h1, h2, h3⟩ := h
  rw [h1] at h2 ⊢
  have hb : Spec.int32 (BitVec.ofInt 32 ((s.msgs.flatMap message1).length : Int)) ++ s.msgs.flatMap message1 = Spec.bytes (s.msgs.flatMap message1) := by
    rw [BitVec.ofInt_natCast]; rfl
  rw [hb]
  have hl : s.msgs.length ≤ (s.msgs.flatMap message1).length := by
    rw [List.length_flatMap]
    generalize s.msgs = l
    induction l with
    | nil => simp
    | cons m l ih =>
      have := List.length_pos_iff.2 (message1_ne m)
      simp only [List.length_cons, List.map_cons, List.sum_cons]; omega
  have := (parses_bytes (s := s.msgs.flatMap message1) (by unfold ShortList; omega)).bind
    (f := fun b => match all message b.length b with
      | none => failure
      | some ms => return ms) (b' := []) (y := s.msgs) (by
    rw [all_parses (fun m hm => parses_message (h3 m hm)) (fun m _ => message1_ne m) hl]
    exact Parses.pure _)
  rw [List.append_nil] at this
  exact this

theorem parses_fetch {x : FetchResponse} (hl : ShortList x.responses)
    (ht : ∀ t ∈ x.responses, ShortStr t.topic ∧ ShortList t.partitions ∧ ∀ p ∈ t.partitions, GoodSet p.records) :
    Parses fetch (fetchResponse x) (x.throttleTimeMs, x.responses.map fun t => (t.topic, t.partitions.map FetchedPartition.of)) := by
  unfold fetchResponse
  refine (parses_int32 _).bind ?_
  refine Parses.map (parses_array_map (g := fun t => (t.topic, t.partitions.map FetchedPartition.of)) hl fun t h => ?_) (fun ts => (x.throttleTimeMs, ts))
  obtain ⟨h1, h2, h3⟩ := ht t h
  refine (parses_str h1).bind ?_
  refine Parses.map (parses_array_map (g := FetchedPartition.of) h2 fun p hp => ?_) (fun ps => (t.topic, ps))
  simp only [List.append_assoc]
  exact (parses_int32 _).bind <| (parses_int16 _).bind <| (parses_int64 _).bind <|
    (parses_messageSet (h3 p hp)).map fun ms =>
      ({ partition := p.partitionIndex, errorCode := p.errorCode, highWatermark := p.highWatermark, messages := ms } : FetchedPartition)

theorem parses_listOffsets {x : ListOffsetsResponse} (hl : ShortList x.topics) (ht : ∀ t ∈ x.topics, ShortStr t.name ∧ ShortList t.partitions) :
    Parses listOffsets (listOffsetsResponse x) x := by
  refine Parses.map (parses_array hl fun t h => ?_) (fun ts => ({ topics := ts } : ListOffsetsResponse))
  refine (parses_str (ht t h).1).bind ?_
  refine Parses.map (parses_array (ht t h).2 fun p _ => ?_) (fun ps => ({ name := t.name, partitions := ps } : ListOffsetsRespTopic))
  simp only [List.append_assoc]
  exact (parses_int32 _).bind <| (parses_int16 _).bind <| (parses_int64 _).bind <|
    (parses_int64 _).map fun o => { p with offset := o }

theorem parses_commit {x : CommitResponse} (hl : ShortList x.topics) (ht : ∀ t ∈ x.topics, ShortStr t.name ∧ ShortList t.partitions) :
    Parses commit (commitResponse x) x := by
  refine Parses.map (parses_array hl fun t h => ?_) (fun ts => ({ topics := ts } : CommitResponse))
  refine (parses_str (ht t h).1).bind ?_
  refine Parses.map (parses_array (ht t h).2 fun p _ => ?_) (fun ps => ({ name := t.name, partitions := ps } : CommitRespTopic))
  exact (parses_int32 _).bind <| (parses_int16 _).map fun e => { p with errorCode := e }

theorem parses_offsetFetch {x : OffsetFetchResponse} (hl : ShortList x.topics)
    (ht : ∀ t ∈ x.topics, ShortStr t.name ∧ ShortList t.partitions ∧ ∀ p ∈ t.partitions, ∀ m ∈ p.metadata, ShortStr m) :
    Parses offsetFetch (offsetFetchResponse x) x := by
  refine Parses.map (parses_array hl fun t h => ?_) (fun ts => ({ topics := ts } : OffsetFetchResponse))
  refine (parses_str (ht t h).1).bind ?_
  refine Parses.map (parses_array (ht t h).2.1 fun p hp => ?_) (fun ps => ({ name := t.name, partitions := ps } : OffsetFetchRespTopic))
  simp only [List.append_assoc]
  exact (parses_int32 _).bind <| (parses_int64 _).bind <| (parses_nullableStr ((ht t h).2.2 p hp)).bind <|
    (parses_int16 _).map fun e => { p with errorCode := e }

theorem parses_metadata {x : MetaResponse} (hb : ShortList x.brokers) (hbs : ∀ b ∈ x.brokers, ShortStr b.host ∧ ∀ r ∈ b.rack, ShortStr r)
    (hl : ShortList x.topics) (ht : ∀ t ∈ x.topics, ShortStr t.name ∧ ShortList t.partitions ∧
      ∀ p ∈ t.partitions, ShortList p.replicas ∧ ShortList p.isr) :
    Parses metadata (metadataResponse x) x := by
  unfold metadataResponse
  rw [List.append_assoc]
  refine Parses.bind (parses_array hb fun b h => ?_) <| (parses_int32 _).bind <|
    Parses.map (parses_array hl fun t h => ?_) (fun ts => { x with topics := ts })
  · simp only [List.append_assoc]
    exact (parses_int32 _).bind <| (parses_str (hbs b h).1).bind <| (parses_int32 _).bind <|
      (parses_nullableStr (hbs b h).2).map fun r => { b with rack := r }
  · simp only [List.append_assoc]
    refine (parses_int16 _).bind <| (parses_str (ht t h).1).bind <| (parses_bool _).bind <|
      Parses.map (parses_array (ht t h).2.1 fun p hp => ?_) (fun ps => { t with partitions := ps })
    have h2 := (ht t h).2.2 p hp
    exact (parses_int16 _).bind <| (parses_int32 _).bind <| (parses_int32 _).bind <|
      (parses_array h2.1 fun r _ => parses_int32 r).bind <|
      (parses_array h2.2 fun r _ => parses_int32 r).map fun isr => { p with isr := isr }

theorem parses_findCoordinator {x : CoordinatorResponse} (h : ShortStr x.host) : Parses findCoordinator (findCoordinatorResponse x) x := by
  simp only [findCoordinatorResponse, List.append_assoc]
  exact (parses_int16 _).bind <| (parses_int32 _).bind <| (parses_str h).bind <| (parses_int32 _).map fun p => { x with port := p }

theorem parses_joinGroup {x : JoinResponse} (h1 : ShortStr x.protocolName) (h2 : ShortStr x.leader) (h3 : ShortStr x.memberId)
    (hl : ShortList x.members) (hm : ∀ m ∈ x.members, ShortStr m.1 ∧ ∀ d ∈ m.2, ShortList d) :
    Parses joinGroup (joinGroupResponse x) x := by
  simp only [joinGroupResponse, List.append_assoc]
  refine (parses_int16 _).bind <| (parses_int32 _).bind <| (parses_str h1).bind <| (parses_str h2).bind <| (parses_str h3).bind <|
    Parses.map (parses_array hl fun m h => ?_) (fun ms => { x with members := ms })
  exact (parses_str (hm m h).1).bind <| (parses_nullableBytes (hm m h).2).map fun d => (m.1, d)

theorem parses_assignment {v : I16} {ts : List (Bytes × List I32)} {u : Option Bytes} (hl : ShortList ts)
    (ht : ∀ t ∈ ts, ShortStr t.1 ∧ ShortList t.2) (hu : ∀ x ∈ u, ShortList x) :
    Parses assignment (memberAssignment v ts u) (v, ts, u) := by
  simp only [memberAssignment, List.append_assoc]
  refine (parses_int16 _).bind <| Parses.bind (parses_array hl fun t h => ?_) <| (parses_nullableBytes hu).map fun u => (v, ts, u)
  exact (parses_str (ht t h).1).bind <| (parses_array (ht t h).2 fun p _ => parses_int32 p).map fun ps => (t.1, ps)

theorem parses_syncGroup {e v : I16} {ts : List (Bytes × List I32)} {u : Option Bytes} (hl : ShortList ts)
    (ht : ∀ t ∈ ts, ShortStr t.1 ∧ ShortList t.2) (hu : ∀ x ∈ u, ShortList x) (hs : ShortList (memberAssignment v ts u)) :
    Parses syncGroup (syncGroupResponse e (memberAssignment v ts u)) (e, v, ts, u) := by
  refine (parses_int16 _).bind ?_
  have := (parses_bytes hs).bind (f := fun b => match assignment b with
    | some (x, []) => (return (e, x) : Parse (I16 × I16 × List (Bytes × List I32) × Option Bytes))
    | _ => failure) (b' := []) (y := (e, v, ts, u)) (by
    rw [(parses_assignment hl ht hu).whole]
    exact Parses.pure _)
  rw [List.append_nil] at this
  exact this

theorem parses_apiVersions {e : I16} {es : List (I16 × I16 × I16)} (hl : ShortList es) : Parses apiVersions (apiVersionsResponse e es) (e, es) := by
  refine (parses_int16 _).bind <| Parses.map (parses_array hl fun x _ => ?_) (fun es => (e, es))
  simp only [List.append_assoc]
  exact (parses_int16 _).bind <| (parses_int16 _).bind <| (parses_int16 _).map fun hi => (x.1, x.2.1, hi)

/-- A response frame is read to its correlation id and body. -/
theorem parses_response {α : Type} {p : Parse α} {b : Bytes} {x : α} (h : Parses p b x) (c : I32) (hb : 4 + b.length < 2 ^ 31) :
    Parses (response p) (Spec.int32 (BitVec.ofNat 32 (4 + b.length)) ++ Spec.int32 c ++ b) (c, x) := by
  have e : Spec.int32 (BitVec.ofNat 32 (4 + b.length)) ++ Spec.int32 c ++ b = Spec.bytes (Spec.int32 c ++ b) := by
    unfold Spec.bytes
    rw [List.append_assoc, show (Spec.int32 c ++ b).length = 4 + b.length by simp [Spec.int32]; omega]
  rw [e]
  have hx : Parses (do let c ← int32; let x ← p; return (c, x) : Parse (I32 × α)) (Spec.int32 c ++ b) (c, x) :=
    (parses_int32 c).bind (h.map fun x => (c, x))
  have := (parses_bytes (s := Spec.int32 c ++ b) (by unfold ShortList; simp [Spec.int32]; omega)).bind
    (f := fun b => match (do let c ← int32; let x ← p; return (c, x) : Parse (I32 × α)) b with
      | some (r, []) => (return r : Parse (I32 × α))
      | _ => failure) (b' := []) (y := (c, x)) (by rw [hx.whole]; exact Parses.pure _)
  rw [List.append_nil] at this
  exact this

end KM.Spec.Client
