import Verif.Parses
import Verif.Writes
/-
The requests among the byte strings: which bodies and headers the handlers and the dispatcher accept, and what they take them for.
-/
namespace KM
open Spec

/-! ### What was read is an accepted body -/

theorem parses_fetch : ParsesFs fetchRequestFields (fun v => (Request.fetch (.ofDen v)).accepted) := by
  refine (parsesFs_cons (name := "ReplicaId") rfl parsesTy_int32 <| parsesFs_cons (name := "MaxWaitMs") rfl parsesTy_int32 <|
    parsesFs_cons (name := "MinBytes") rfl parsesTy_int32 <| parsesFs_cons (name := "Topics") rfl (parsesTy_array rfl <| parsesTy_struct <|
      parsesFs_cons (name := "Topic") rfl parsesTy_str <| parsesFs_cons (name := "Partitions") rfl (parsesTy_array rfl <| parsesTy_struct <|
        parsesFs_cons (name := "Partition") rfl parsesTy_int32 <| parsesFs_cons (name := "FetchOffset") rfl parsesTy_int64 <|
        parsesFs_cons (name := "PartitionMaxBytes") rfl parsesTy_int32 parsesFs_nil) parsesFs_nil) parsesFs_nil).mono ?_
  rintro ⟨a, b, c, ts, ⟨⟩⟩ x h
  refine Lang.cat_mono h (fun _ => id) fun _ h => Lang.cat_mono h (fun _ => id) fun _ h => Lang.cat_mono h (fun _ => id) fun _ h => ?_
  obtain ⟨ts, rfl, h'⟩ := Lang.cat_nil h
  clear h
  refine array_map (fun t _ h => ?_) h'
  obtain ⟨name, ps, ⟨⟩⟩ := t
  refine Lang.cat_mono h (fun _ => id) fun _ h => ?_
  obtain ⟨ps, rfl, h'⟩ := Lang.cat_nil h
  clear h
  refine array_map (fun p _ h => ?_) h'
  obtain ⟨p, o, m, ⟨⟩⟩ := p
  exact Lang.cat_mono h (fun _ => id) fun _ h => Lang.cat_mono h (fun _ => id) fun _ h => Lang.cat_nil h

theorem parses_listOffsets : ParsesFs listOffsetsRequestFields (fun v => (Request.listOffsets (.ofDen v)).accepted) := by
  refine (parsesFs_cons (name := "ReplicaId") rfl parsesTy_int32 <| parsesFs_cons (name := "Topics") rfl (parsesTy_array rfl <| parsesTy_struct <|
      parsesFs_cons (name := "Name") rfl parsesTy_str <| parsesFs_cons (name := "Parititions") rfl (parsesTy_array rfl <| parsesTy_struct <|
        parsesFs_cons (name := "PartitionIndex") rfl parsesTy_int32 <| parsesFs_cons (name := "Timestamp") rfl parsesTy_int64 parsesFs_nil) parsesFs_nil) parsesFs_nil).mono ?_
  rintro ⟨a, ts, ⟨⟩⟩ x h
  refine Lang.cat_mono h (fun _ => id) fun _ h => ?_
  obtain ⟨ts, rfl, h'⟩ := Lang.cat_nil h
  clear h
  refine array_map (fun t _ h => ?_) h'
  obtain ⟨name, ps, ⟨⟩⟩ := t
  refine Lang.cat_mono h (fun _ => id) fun _ h => ?_
  obtain ⟨ps, rfl, h'⟩ := Lang.cat_nil h
  clear h
  refine array_map (fun p _ h => ?_) h'
  obtain ⟨p, o, ⟨⟩⟩ := p
  exact Lang.cat_mono h (fun _ => id) fun _ h => Lang.cat_nil h

theorem parses_metadata : ParsesFs metadataRequestFields (fun v => (Request.metadata (v.1.getD [])).accepted) := by
  refine (parsesFs_cons (name := "Topics") rfl (parsesTy_array rfl parsesTy_str) parsesFs_nil).mono ?_
  rintro ⟨ts, ⟨⟩⟩ x h
  obtain ⟨ts, rfl, h'⟩ := Lang.cat_nil h
  exact h'

theorem parses_commit : ParsesFs commitRequestFields (fun v => (Request.offsetCommit (.ofDen v)).accepted) := by
  refine (parsesFs_cons (name := "GroupId") rfl parsesTy_str <| parsesFs_cons (name := "GenerationIdOrMemberEpoch") rfl parsesTy_int32 <|
    parsesFs_cons (name := "MemberId") rfl parsesTy_str <| parsesFs_cons (name := "RetentionTimeMs") rfl parsesTy_int64 <|
    parsesFs_cons (name := "Topics") rfl (parsesTy_array rfl <| parsesTy_struct <|
      parsesFs_cons (name := "Name") rfl parsesTy_str <| parsesFs_cons (name := "Partitions") rfl (parsesTy_array rfl <| parsesTy_struct <|
        parsesFs_cons (name := "PartitionIndex") rfl parsesTy_int32 <| parsesFs_cons (name := "CommittedOffset") rfl parsesTy_int64 <|
        parsesFs_cons (name := "CommittedMetadata") rfl parsesTy_nullableStr parsesFs_nil) parsesFs_nil) parsesFs_nil).mono ?_
  rintro ⟨a, b, c, d, ts, ⟨⟩⟩ x h
  refine Lang.cat_mono h (fun _ => id) fun _ h => Lang.cat_mono h (fun _ => id) fun _ h => Lang.cat_mono h (fun _ => id) fun _ h =>
    Lang.cat_mono h (fun _ => id) fun _ h => ?_
  obtain ⟨ts, rfl, h'⟩ := Lang.cat_nil h
  clear h
  refine array_map (fun t _ h => ?_) h'
  obtain ⟨name, ps, ⟨⟩⟩ := t
  refine Lang.cat_mono h (fun _ => id) fun _ h => ?_
  obtain ⟨ps, rfl, h'⟩ := Lang.cat_nil h
  clear h
  refine array_map (fun p _ h => ?_) h'
  obtain ⟨p, o, m, ⟨⟩⟩ := p
  exact Lang.cat_mono h (fun _ => id) fun _ h => Lang.cat_mono h (fun _ => id) fun _ h => Lang.cat_nil h

theorem parses_offsetFetch : ParsesFs offsetFetchRequestFields (fun v => (Request.offsetFetch (.ofDen v)).accepted) := by
  refine (parsesFs_cons (name := "GroupId") rfl parsesTy_str <| parsesFs_cons (name := "Topics") rfl (parsesTy_array rfl <| parsesTy_struct <|
      parsesFs_cons (name := "Name") rfl parsesTy_str <| parsesFs_cons (name := "PartitionIndexes") rfl (parsesTy_array rfl parsesTy_int32) parsesFs_nil)
      parsesFs_nil).mono ?_
  rintro ⟨a, ts, ⟨⟩⟩ x h
  refine Lang.cat_mono h (fun _ => id) fun _ h => ?_
  obtain ⟨ts, rfl, h'⟩ := Lang.cat_nil h
  clear h
  refine array_map (fun t _ h => ?_) h'
  obtain ⟨name, ps, ⟨⟩⟩ := t
  refine Lang.cat_mono h (fun _ => id) fun _ h => ?_
  obtain ⟨ps, rfl, h'⟩ := Lang.cat_nil h
  exact h'

theorem parses_findCoordinator : ParsesFs findCoordinatorRequestFields (fun v => (Request.findCoordinator v.1).accepted) :=
  (parsesFs_cons (name := "Key") rfl parsesTy_str parsesFs_nil).mono fun _ _ h => Lang.cat_nil h

theorem parses_pairs (n1 n2 : String) : ParsesTy (.slice (.struct (fld n1 .string <| fld n2 .bytes .nil)))
    (fun v => Loose.array (fun p : Bytes × Bytes => Loose.str p.1 ++ Loose.bytes p.2) ((v.getD []).map fun p => (p.1, p.2.1.getD []))) := by
  refine (parsesTy_array rfl <| parsesTy_struct <| parsesFs_cons (name := n1) rfl parsesTy_str <| parsesFs_cons (name := n2) rfl parsesTy_bytes parsesFs_nil).mono ?_
  intro v b h x e
  obtain ⟨xs, rfl, h'⟩ := h x e
  refine array_map (fun p _ h => ?_) h'
  obtain ⟨a, d, ⟨⟩⟩ := p
  refine Lang.cat_mono h (fun _ => id) fun _ h => ?_
  obtain ⟨s, rfl, h'⟩ := Lang.cat_nil h
  exact h'

theorem parses_joinGroup : ParsesFs joinGroupRequestFields (fun (g, s, r, m, t, ps, ()) =>
    (Request.joinGroup g s r m t ((ps.getD []).map fun p => (p.1, p.2.1.getD []))).accepted) := by
  refine (parsesFs_cons (name := "GroupId") rfl parsesTy_str <| parsesFs_cons (name := "SessionTimeoutMs") rfl parsesTy_int32 <|
    parsesFs_cons (name := "RebalanceTimeoutMs") rfl parsesTy_int32 <| parsesFs_cons (name := "MemberId") rfl parsesTy_str <|
    parsesFs_cons (name := "ProtocolType") rfl parsesTy_str <| parsesFs_cons (name := "Protocols") rfl (parses_pairs "Name" "Metadata") parsesFs_nil).mono ?_
  rintro ⟨g, s, r, m, t, ps, ⟨⟩⟩ x h
  exact Lang.cat_mono h (fun _ => id) fun _ h => Lang.cat_mono h (fun _ => id) fun _ h => Lang.cat_mono h (fun _ => id) fun _ h =>
    Lang.cat_mono h (fun _ => id) fun _ h => Lang.cat_mono h (fun _ => id) fun _ h => Lang.cat_nil h

theorem parses_heartbeat : ParsesFs heartbeatRequestFields (fun v => (Request.heartbeat v.1 v.2.1 v.2.2.1).accepted) :=
  (parsesFs_cons (name := "GroupId") rfl parsesTy_str <| parsesFs_cons (name := "GenerationId") rfl parsesTy_int32 <|
    parsesFs_cons (name := "MemberId") rfl parsesTy_str parsesFs_nil).mono fun _ _ h =>
  Lang.cat_mono h (fun _ => id) fun _ h => Lang.cat_mono h (fun _ => id) fun _ h => Lang.cat_nil h

theorem parses_leaveGroup : ParsesFs leaveGroupRequestFields (fun v => (Request.leaveGroup v.1 v.2.1).accepted) :=
  (parsesFs_cons (name := "GroupId") rfl parsesTy_str <| parsesFs_cons (name := "MemberId") rfl parsesTy_str parsesFs_nil).mono fun _ _ h =>
  Lang.cat_mono h (fun _ => id) fun _ h => Lang.cat_nil h

theorem parses_syncGroup : ParsesFs syncGroupRequestFields (fun (g, n, m, as, ()) =>
    (Request.syncGroup g n m ((as.getD []).map fun p => (p.1, p.2.1.getD []))).accepted) := by
  refine (parsesFs_cons (name := "GroupId") rfl parsesTy_str <| parsesFs_cons (name := "GenerationId") rfl parsesTy_int32 <|
    parsesFs_cons (name := "MemberId") rfl parsesTy_str <| parsesFs_cons (name := "Assignments") rfl (parses_pairs "MemberID" "Assignments") parsesFs_nil).mono ?_
  rintro ⟨g, n, m, as, ⟨⟩⟩ x h
  exact Lang.cat_mono h (fun _ => id) fun _ h => Lang.cat_mono h (fun _ => id) fun _ h => Lang.cat_mono h (fun _ => id) fun _ h => Lang.cat_nil h

/-! ### An accepted body has the size of the proper one -/

/-- Every byte string of the set has the length of this one. -/
def Like (L : Lang) (b : Bytes) : Prop := ∀ x, L x → x.length = b.length

theorem Like.only (b : Bytes) : Like (.only b) b := fun _ h => congrArg List.length h

theorem Like.cat {L M : Lang} {b c : Bytes} (h1 : Like L b) (h2 : Like M c) : Like (L ++ M) (b ++ c) := by
  rintro x ⟨x1, x2, rfl, p, q⟩
  rw [List.length_append, List.length_append, h1 x1 p, h2 x2 q]

theorem like_str (s : Bytes) : Like (Loose.str s) (str s) := by
  rintro x (⟨_, rfl⟩ | ⟨rfl, n, _, rfl⟩) <;> rfl

theorem like_nullableStr (s : Option Bytes) : Like (Loose.nullableStr s) (nullableStr s) := by
  cases s with
  | none => rintro x ⟨n, _, rfl⟩; rfl
  | some s => rintro x ⟨_, rfl⟩; rfl

theorem like_bytes (s : Bytes) : Like (Loose.bytes s) (bytes s) := fun _ h => by rw [h.2]

theorem like_items {α : Type} {f : α → Lang} {g : α → Bytes} (h : ∀ x, Like (f x) (g x)) (xs : List α) : Like (Loose.items f xs) (xs.flatMap g) := by
  induction xs with
  | nil => exact Like.only []
  | cons x xs ih => rw [List.flatMap_cons]; exact (h x).cat ih

theorem like_array {α : Type} {f : α → Lang} {g : α → Bytes} (h : ∀ x, Like (f x) (g x)) (xs : List α) : Like (Loose.array f xs) (array g xs) :=
  fun x hx => (Like.only _).cat (like_items h xs) x hx.2

theorem accepted_like (req : Request) : Like req.accepted req.body := by
  cases req with
  | fetch q =>
    simp only [Request.accepted, Request.body, List.append_assoc]
    exact (Like.only _).cat <| (Like.only _).cat <| (Like.only _).cat <| like_array (fun t => (like_str _).cat <| like_array (fun p =>
      (Like.only _).cat <| (Like.only _).cat <| Like.only _) _) _
  | listOffsets q => exact (Like.only _).cat <| like_array (fun t => (like_str _).cat <| like_array (fun p => (Like.only _).cat <| Like.only _) _) _
  | metadata ts => exact like_array like_str _
  | offsetCommit q =>
    simp only [Request.accepted, Request.body, List.append_assoc]
    exact (like_str _).cat <| (Like.only _).cat <| (like_str _).cat <| (Like.only _).cat <| like_array (fun t => (like_str _).cat <| like_array (fun p =>
      (Like.only _).cat <| (Like.only _).cat <| like_nullableStr _) _) _
  | offsetFetch q => exact (like_str _).cat <| like_array (fun t => (like_str _).cat <| like_array (fun p => Like.only _) _) _
  | findCoordinator key => exact like_str _
  | joinGroup =>
    simp only [Request.accepted, Request.body, List.append_assoc]
    exact (like_str _).cat <| (Like.only _).cat <| (Like.only _).cat <| (like_str _).cat <| (like_str _).cat <| like_array (fun t => (like_str _).cat <| like_bytes _) _
  | heartbeat =>
    simp only [Request.accepted, Request.body, List.append_assoc]
    exact (like_str _).cat <| (Like.only _).cat <| like_str _
  | leaveGroup => exact (like_str _).cat <| like_str _
  | syncGroup =>
    simp only [Request.accepted, Request.body, List.append_assoc]
    exact (like_str _).cat <| (Like.only _).cat <| (like_str _).cat <| like_array (fun t => (like_str _).cat <| like_bytes _) _
  | apiVersions => exact Like.only _

/-! ### The fields of an accepted body have a representation -/

theorem short_str {s b : Bytes} (h : Loose.str s b) : ShortStr s := by
  rcases h with ⟨h, _⟩ | ⟨rfl, _⟩
  · exact h
  · show 0 < 2 ^ 15; decide

theorem short_nullableStr {s : Option Bytes} {b : Bytes} (h : Loose.nullableStr s b) : ∀ x ∈ s, ShortStr x := by
  rintro x hx
  cases hx
  exact h.1

theorem items_mem {α : Type} {f : α → Lang} {xs : List α} {b : Bytes} (h : Loose.items f xs b) : ∀ x ∈ xs, ∃ c, f x c := by
  induction xs generalizing b with
  | nil => simp
  | cons y ys ih =>
    obtain ⟨b1, b2, _, h1, h2⟩ := h
    intro x hx
    rcases List.mem_cons.1 hx with rfl | hx
    · exact ⟨b1, h1⟩
    · exact ih h2 x hx

theorem array_mem {α : Type} {f : α → Lang} {xs : List α} {b : Bytes} (h : Loose.array f xs b) : ShortList xs ∧ ∀ x ∈ xs, ∃ c, f x c := by
  obtain ⟨h1, b1, b2, _, _, h2⟩ := h
  exact ⟨h1, items_mem h2⟩

theorem accepted_wf {req : Request} {b : Bytes} (h : req.accepted b) : req.WellFormed := by
  cases req with
  | fetch q =>
    obtain ⟨_, _, _, _, _, _, _, _, _, _, _, _, h⟩ := h
    obtain ⟨h1, h2⟩ := array_mem h
    refine ⟨h1, fun t ht => ?_⟩
    obtain ⟨_, _, _, _, h3, h4⟩ := h2 t ht
    exact ⟨short_str h3, (array_mem h4).1⟩
  | listOffsets q =>
    obtain ⟨_, _, _, _, h⟩ := h
    obtain ⟨h1, h2⟩ := array_mem h
    refine ⟨h1, fun t ht => ?_⟩
    obtain ⟨_, _, _, _, h3, h4⟩ := h2 t ht
    exact ⟨short_str h3, (array_mem h4).1⟩
  | metadata ts =>
    obtain ⟨h1, h2⟩ := array_mem h
    exact ⟨h1, fun t ht => (h2 t ht).elim fun _ h => short_str h⟩
  | offsetCommit q =>
    obtain ⟨_, _, _, g1, _, _, _, _, _, _, _, g2, _, _, _, _, h⟩ := h
    obtain ⟨h1, h2⟩ := array_mem h
    refine ⟨short_str g1, short_str g2, h1, fun t ht => ?_⟩
    obtain ⟨_, _, _, _, h3, h4⟩ := h2 t ht
    obtain ⟨h5, h6⟩ := array_mem h4
    refine ⟨short_str h3, h5, fun p hp => ?_⟩
    obtain ⟨_, _, _, _, _, _, _, _, _, h7⟩ := h6 p hp
    exact short_nullableStr h7
  | offsetFetch q =>
    obtain ⟨_, _, _, g1, h⟩ := h
    obtain ⟨h1, h2⟩ := array_mem h
    refine ⟨short_str g1, h1, fun t ht => ?_⟩
    obtain ⟨_, _, _, _, h3, h4⟩ := h2 t ht
    exact ⟨short_str h3, (array_mem h4).1⟩
  | findCoordinator key => exact short_str h
  | joinGroup =>
    obtain ⟨_, _, _, g1, _, _, _, _, _, _, _, _, _, _, _, g2, _, _, _, g3, h⟩ := h
    obtain ⟨h1, h2⟩ := array_mem h
    refine ⟨short_str g1, short_str g2, short_str g3, h1, fun t ht => ?_⟩
    obtain ⟨_, _, _, _, h3, h4⟩ := h2 t ht
    exact ⟨short_str h3, h4.1⟩
  | heartbeat =>
    obtain ⟨_, _, _, g1, _, _, _, _, g2⟩ := h
    exact ⟨short_str g1, short_str g2⟩
  | leaveGroup =>
    obtain ⟨_, _, _, g1, g2⟩ := h
    exact ⟨short_str g1, short_str g2⟩
  | syncGroup =>
    obtain ⟨_, _, _, g1, _, _, _, _, _, _, _, g2, h⟩ := h
    obtain ⟨h1, h2⟩ := array_mem h
    refine ⟨short_str g1, short_str g2, h1, fun t ht => ?_⟩
    obtain ⟨_, _, _, _, h3, h4⟩ := h2 t ht
    exact ⟨short_str h3, h4.1⟩
  | apiVersions => trivial

/-! ### The handlers -/

/-- What stands at the beginning of the window stands at the beginning of the data. -/
theorem at_front {m b : Bytes} (h : At ⟨m⟩ 0 b) : m = b ++ m.drop b.length ∧ b.length ≤ 4096 := by
  have hb := h.bound
  have hw := Reader.window_length ⟨m⟩
  obtain ⟨pre, post, e, hp⟩ := h
  cases List.eq_nil_of_length_eq_zero hp
  rw [window_take, List.nil_append] at e
  refine ⟨?_, by omega⟩
  have e2 : m = b ++ (post ++ m.drop 4096) := by rw [← List.append_assoc, ← e, List.take_append_drop]
  have e3 : m.drop b.length = post ++ m.drop 4096 := by
    conv => lhs; rw [e2]
    exact List.drop_left
  rw [e3]
  exact e2

theorem readRequest_inv {fs : Fields} {P : fs.den → Lang} (hp : ParsesFs fs P) {m : Bytes} {v : fs.den} {r : Reader} (h : readRequest fs ⟨m⟩ = .ok v r) :
    ∃ b, P v b ∧ b.length ≤ 4096 ∧ m = b ++ r.rest := by
  unfold readRequest at h
  split at h <;> try (cases h; done)
  rename_i next u hd
  cases h
  obtain ⟨b, h1, h2, h3⟩ := parsesTy_struct hp ⟨m⟩ 0 _ _ (Nat.zero_le _) hd
  obtain ⟨h4, h5⟩ := at_front h1
  refine ⟨b, h3 _ rfl, h5, ?_⟩
  rw [h2, Nat.zero_add]
  exact h4

theorem withRequest_inv {fs : Fields} {P : fs.den → Lang} (hp : ParsesFs fs P) (m : Bytes) (k : fs.den → Prog (Option Dyn)) :
    withRequest fs ⟨m⟩ k = .ret .err ∨ withRequest fs ⟨m⟩ k = .panic ∨ ∃ v b extra, P v b ∧ b.length ≤ 4096 ∧ m = b ++ extra ∧
      withRequest fs ⟨m⟩ k = (k v).bind fun
        | none => .ret .err
        | some d => .ret (.ok d ⟨extra⟩) := by
  unfold withRequest
  cases h : readRequest fs ⟨m⟩ with
  | err => exact .inl rfl
  | panic => exact .inr (.inl rfl)
  | ok v r =>
    obtain ⟨b, h1, h2, h3⟩ := readRequest_inv hp h
    exact .inr (.inr ⟨v, b, r.rest, h1, h2, h3, rfl⟩)

/-- On any bytes, a handler fails before it has done anything, or the bytes begin with an accepted body and the handler does what that request asks for. -/
theorem handler_inv (api : Api) (sv : Server) (m : Bytes) : api.handler sv ⟨m⟩ = .ret .err ∨ api.handler sv ⟨m⟩ = .panic ∨
    ∃ req b extra, req.entry = api ∧ req.accepted b ∧ b.length ≤ 4096 ∧ m = b ++ extra ∧ api.handler sv ⟨m⟩ = (serve sv req).bind fun
      | none => .ret .err
      | some d => .ret (.ok d ⟨extra⟩) := by
  cases api with
  | fetch =>
    rcases withRequest_inv parses_fetch m _ with h | h | ⟨v, b, extra, h1, h2, h3, h4⟩
    · exact .inl h
    · exact .inr (.inl h)
    · exact .inr (.inr ⟨.fetch (.ofDen v), b, extra, rfl, h1, h2, h3, h4⟩)
  | listOffsets =>
    rcases withRequest_inv parses_listOffsets m _ with h | h | ⟨v, b, extra, h1, h2, h3, h4⟩
    · exact .inl h
    · exact .inr (.inl h)
    · exact .inr (.inr ⟨.listOffsets (.ofDen v), b, extra, rfl, h1, h2, h3, h4⟩)
  | metadata =>
    rcases withRequest_inv parses_metadata m _ with h | h | ⟨v, b, extra, h1, h2, h3, h4⟩
    · exact .inl h
    · exact .inr (.inl h)
    · exact .inr (.inr ⟨.metadata (v.1.getD []), b, extra, rfl, h1, h2, h3, h4⟩)
  | offsetCommit =>
    rcases withRequest_inv parses_commit m _ with h | h | ⟨v, b, extra, h1, h2, h3, h4⟩
    · exact .inl h
    · exact .inr (.inl h)
    · exact .inr (.inr ⟨.offsetCommit (.ofDen v), b, extra, rfl, h1, h2, h3, h4⟩)
  | offsetFetch =>
    rcases withRequest_inv parses_offsetFetch m _ with h | h | ⟨v, b, extra, h1, h2, h3, h4⟩
    · exact .inl h
    · exact .inr (.inl h)
    · exact .inr (.inr ⟨.offsetFetch (.ofDen v), b, extra, rfl, h1, h2, h3, h4⟩)
  | findCoordinator =>
    rcases withRequest_inv parses_findCoordinator m _ with h | h | ⟨v, b, extra, h1, h2, h3, h4⟩
    · exact .inl h
    · exact .inr (.inl h)
    · exact .inr (.inr ⟨.findCoordinator v.1, b, extra, rfl, h1, h2, h3, h4⟩)
  | joinGroup =>
    rcases withRequest_inv parses_joinGroup m _ with h | h | ⟨v, b, extra, h1, h2, h3, h4⟩
    · exact .inl h
    · exact .inr (.inl h)
    · exact .inr (.inr ⟨.joinGroup .., b, extra, rfl, h1, h2, h3, h4⟩)
  | heartbeat =>
    rcases withRequest_inv parses_heartbeat m _ with h | h | ⟨v, b, extra, h1, h2, h3, h4⟩
    · exact .inl h
    · exact .inr (.inl h)
    · exact .inr (.inr ⟨.heartbeat .., b, extra, rfl, h1, h2, h3, h4⟩)
  | leaveGroup =>
    rcases withRequest_inv parses_leaveGroup m _ with h | h | ⟨v, b, extra, h1, h2, h3, h4⟩
    · exact .inl h
    · exact .inr (.inl h)
    · exact .inr (.inr ⟨.leaveGroup .., b, extra, rfl, h1, h2, h3, h4⟩)
  | syncGroup =>
    rcases withRequest_inv parses_syncGroup m _ with h | h | ⟨v, b, extra, h1, h2, h3, h4⟩
    · exact .inl h
    · exact .inr (.inl h)
    · refine .inr (.inr ⟨.syncGroup .., b, extra, rfl, h1, h2, h3, ?_⟩)
      refine h4.trans ?_
      simp only [serve, List.length_map]
  | apiVersions => exact .inr (.inr ⟨.apiVersions, [], m, rfl, rfl, by simp, rfl, rfl⟩)

/-! ### The header -/

theorem parses_header : Parses readHeader (fun v b => ∃ client, acceptedHeader v.1 v.2.1 v.2.2 client b) := by
  have h1 : ParsesTy (.struct headerFields) (fun v => .only (Spec.int16 v.1 ++ Spec.int16 v.2.1 ++ Spec.int32 v.2.2.1)) := by
    refine (parsesTy_struct <| parsesFs_cons (name := "RequestApiKey") rfl parsesTy_int16 <| parsesFs_cons (name := "RequestApiVersion") rfl parsesTy_int16 <|
      parsesFs_cons (name := "CorrelationId") rfl parsesTy_int32 parsesFs_nil).mono ?_
    intro v b h x e
    obtain ⟨b1, b2, rfl, h1, b3, b4, rfl, h2, b5, b6, rfl, h3, h4⟩ := h x e
    have h1 : b1 = _ := h1
    have h2 : b3 = _ := h2
    have h3 : b5 = _ := h3
    have h4 : b6 = _ := h4
    subst h1 h2 h3 h4
    show _ = _
    simp
  have h2 : Parses peekString (fun _ b => ∃ client, Loose.nullableStr client b) := by
    refine (((parses_nullableStr.map fun s : Option Bytes => Option.some (s.getD [])).map fun s : Option Bytes => s.getD []).mono ?_).congr fun r off => by
      rw [peekString, peekObject, peekObjectWorker]
    rintro v b ⟨_, _, s, _, h⟩
    exact ⟨s, h⟩
  have some : Parses (fun r off => peekObject (.struct headerFields) r off) (fun v b => ∃ x, v = Option.some x ∧
      Lang.only (Spec.int16 x.1 ++ Spec.int16 x.2.1 ++ Spec.int32 x.2.2.1) b) := by
    intro r off n v ho hd
    obtain ⟨b, a1, a2, a3⟩ := h1 r off n v ho hd
    cases v with
    | some x => exact ⟨b, a1, a2, x, rfl, a3 x rfl⟩
    | none =>
      dsimp only at hd
      rw [peekObject, peekObjectWorker] at hd
      cases hx : peekObjectStruct headerFields r off <;> rw [hx] at hd <;> cases hd
  refine (some.bind (f := fun r next hdr => (peekString r next).map fun _ => let (k, v, c, ()) := hdr.getD (0, 0, 0, ()); (k, v, c))
    (fun hdr => h2.map fun _ => let (k, v, c, ()) := hdr.getD (0, 0, 0, ()); (k, v, c))).mono ?_
  rintro v b ⟨hdr, b1, b2, rfl, ⟨⟨k, w, c, ⟨⟩⟩, rfl, p⟩, _, rfl, client, q⟩
  exact ⟨client, b1, b2, rfl, p, q⟩

theorem header_like (k v : I16) (c : I32) (client : Option Bytes) : Like (acceptedHeader k v c client) (header k v c client) := (Like.only _).cat (like_nullableStr _)

/-! ### Every accepted body is read -/

theorem reads_absent : ∀ b, Loose.absent b → Reads peekNullableString b none := by
  rintro b ⟨n, hn, rfl⟩
  have key : Reads (fun r off => (peekInt16 r off).bind fun n count =>
      if count.toInt < 0 then .ok n none else (peekFixedData r n count.toInt.toNat).map some) (Spec.int16 n ++ []) none := by
    refine Reads.bind (f := fun r n (count : I16) => if count.toInt < 0 then .ok n none else (peekFixedData r n count.toInt.toNat).map some) (reads_int16 n) ?_
    simp only [if_pos hn]
    exact Reads.pure none
  rw [List.append_nil] at key
  exact key.congr fun r off => peekNullableData16_bind r off

theorem reads_accepted_nullableStr {s : Option Bytes} {b : Bytes} (h : Loose.nullableStr s b) : Reads peekNullableString b s := by
  cases s with
  | none => exact reads_absent b h
  | some s =>
    obtain ⟨h1, rfl⟩ := h
    exact reads_nullableStr (some s) (by intro x hx; cases hx; exact h1)

/-- The decoder of a type reads every byte string of the set to the value. -/
abbrev LReadsTy (t : Ty) (L : Lang) (v : t.den) : Prop := ∀ b, L b → ReadsTy t b v
abbrev LReadsFs (fs : Fields) (L : Lang) (v : fs.den) : Prop := ∀ b, L b → ReadsFs fs b v

theorem lreads_int32 (v : I32) : LReadsTy .int32 (Loose.int32 v) v := by rintro b rfl; exact readsTy_int32 v
theorem lreads_int64 (v : I64) : LReadsTy .int64 (Loose.int64 v) v := by rintro b rfl; exact readsTy_int64 v
theorem lreads_nullableStr (s : Option Bytes) : LReadsTy .nullableString (Loose.nullableStr s) s := by
  intro b h
  simpa only [ReadsTy, peekObjectWorker] using (reads_accepted_nullableStr h).map some

theorem lreads_str (s : Bytes) : LReadsTy .string (Loose.str s) s := by
  rintro b (⟨h, rfl⟩ | ⟨rfl, h⟩)
  · exact readsTy_str s h
  · have := (reads_absent b h).map fun s : Option Bytes => some (s.getD [])
    exact this.congr fun r off => by rw [peekObjectWorker]

theorem lreads_bytes (s : Bytes) : LReadsTy .bytes (Loose.bytes s) (some s) := by rintro b ⟨h, rfl⟩; exact readsTy_bytes s h

theorem lreads_array {α : Type} {e : Ty} (he : e.assignable = true) {f : α → Lang} (g : α → e.den) (xs : List α) (h : ∀ x, LReadsTy e (f x) (g x)) :
    LReadsTy (.slice e) (Loose.array f xs) (some (xs.map g)) := by
  rintro b ⟨hl, b1, b2, rfl, hb1, hb2⟩
  have hb1 : b1 = _ := hb1
  subst hb1
  have items : ∀ (ys : List α) c, Loose.items f ys c → Reads (fun r off => peekItems (fun o => peekObjectWorker e r o false false) true ys.length off) c (ys.map g) := by
    intro ys
    induction ys with
    | nil => rintro c rfl; exact Reads.pure _
    | cons x ys ih =>
      rintro c ⟨c1, c2, rfl, h1, h2⟩
      exact Reads.bind (f := fun r n (item : Option e.den) => match item with
        | none => Res.panic
        | some y => (peekItems (fun o => peekObjectWorker e r o false false) true ys.length n).map (y :: ·)) (h x c1 h1) ((ih c2 h2).map (g x :: ·)) |>.congr fun r off => by rw [List.length_cons, peekItems]; refine congrArg (Res.bind _) ?_; funext n item; cases item <;> rfl
  have e1 : (BitVec.ofNat 32 xs.length : I32).toInt = xs.length := by
    have : xs.length < 2 ^ 31 := hl
    rw [BitVec.toInt_eq_toNat_of_lt (by rw [BitVec.toNat_ofNat]; omega), BitVec.toNat_ofNat, Nat.mod_eq_of_lt (by omega)]
  have key : Reads (fun r off => peekObjectVarArray (fun o => peekObjectWorker e r o false false) true r off) (Spec.int32 (BitVec.ofNat 32 xs.length) ++ b2) (some (xs.map g)) := by
    refine Reads.bind (f := fun r n (count : I32) => peekObjectFixedArray (fun o => peekObjectWorker e r o false false) true n count.toInt)
      (reads_int32 (BitVec.ofNat 32 xs.length)) ?_
    rw [e1]
    have h2 : ((xs.length : Int) ≥ 0) := by omega
    simp only [peekObjectFixedArray, if_pos h2, Int.toNat_natCast]
    exact (items xs b2 hb2).map some
  exact (key.map (Option.map some)).congr fun r off => by rw [peekObjectWorker, he]; rfl

theorem lreads_nil : LReadsFs .nil (.only []) () := by rintro b rfl; exact readsFs_nil

theorem lreads_cons {name : String} {t : Ty} {rest : Fields} {L M : Lang} {v : t.den} {vs : rest.den} (ha : t.assignable = true)
    (h : LReadsTy t L v) (hs : LReadsFs rest M vs) : LReadsFs (fld name t rest) (L ++ M) (v, vs) := by
  rintro b ⟨b1, b2, rfl, h1, h2⟩
  exact readsFs_cons ha (h b1 h1) (hs b2 h2)

theorem lreads_last {name : String} {t : Ty} {L : Lang} {v : t.den} (ha : t.assignable = true) (h : LReadsTy t L v) : LReadsFs (fld name t .nil) L (v, ()) := by
  intro b hb
  have := readsFs_cons (name := name) ha (h b hb) readsFs_nil
  rwa [List.append_nil] at this

theorem lreads_struct {fs : Fields} {L : Lang} {v : fs.den} (h : LReadsFs fs L v) : LReadsTy (.struct fs) L v := fun b hb => readsTy_struct (h b hb)

theorem accepted_reads {req : Request} {fs : Fields} {v : fs.den} (hv : req.value = some ⟨fs, v⟩) : LReadsFs fs req.accepted v := by
  cases req with
  | fetch q =>
    cases hv
    exact lreads_cons rfl (lreads_int32 _) <| lreads_cons rfl (lreads_int32 _) <| lreads_cons rfl (lreads_int32 _) <| lreads_last rfl <|
      lreads_array rfl (e := .struct fetchTopicFields) _ _ fun t =>
        lreads_struct <| lreads_cons rfl (lreads_str _) <| lreads_last rfl <|
          lreads_array rfl (e := .struct fetchPartitionFields) _ _ fun p =>
            lreads_struct <| lreads_cons rfl (lreads_int32 _) <| lreads_cons rfl (lreads_int64 _) <| lreads_last rfl <| lreads_int32 _
  | listOffsets q =>
    cases hv
    exact lreads_cons rfl (lreads_int32 _) <| lreads_last rfl <|
      lreads_array rfl (e := .struct listOffsetsTopicFields) _ _ fun t =>
        lreads_struct <| lreads_cons rfl (lreads_str _) <| lreads_last rfl <|
          lreads_array rfl (e := .struct listOffsetsPartitionFields) _ _ fun p =>
            lreads_struct <| lreads_cons rfl (lreads_int32 _) <| lreads_last rfl <| lreads_int64 _
  | metadata ts =>
    cases hv
    have := lreads_last (name := "Topics") rfl <| lreads_array rfl (e := .string) id ts lreads_str
    rw [List.map_id] at this
    exact this
  | offsetCommit q =>
    cases hv
    exact lreads_cons rfl (lreads_str _) <| lreads_cons rfl (lreads_int32 _) <| lreads_cons rfl (lreads_str _) <| lreads_cons rfl (lreads_int64 _) <| lreads_last rfl <|
      lreads_array rfl (e := .struct commitTopicFields) _ _ fun t =>
        lreads_struct <| lreads_cons rfl (lreads_str _) <| lreads_last rfl <|
          lreads_array rfl (e := .struct commitPartitionFields) _ _ fun p =>
            lreads_struct <| lreads_cons rfl (lreads_int32 _) <| lreads_cons rfl (lreads_int64 _) <| lreads_last rfl <| lreads_nullableStr _
  | offsetFetch q =>
    cases hv
    exact lreads_cons rfl (lreads_str _) <| lreads_last rfl <|
      lreads_array rfl (e := .struct offsetFetchTopicFields) _ _ fun t =>
        lreads_struct <| lreads_cons rfl (lreads_str _) <| lreads_last rfl <| by
          have := lreads_array rfl (e := .int32) id t.partitionIndexes lreads_int32
          rw [List.map_id] at this
          exact this
  | findCoordinator key => cases hv; exact lreads_last rfl (lreads_str _)
  | joinGroup g s r m t ps =>
    cases hv
    exact lreads_cons rfl (lreads_str _) <| lreads_cons rfl (lreads_int32 _) <| lreads_cons rfl (lreads_int32 _) <| lreads_cons rfl (lreads_str _) <|
      lreads_cons rfl (lreads_str _) <| lreads_last rfl <| lreads_array rfl (e := .struct (fld _ .string <| fld _ .bytes .nil)) _ _ fun p =>
        lreads_struct <| lreads_cons rfl (lreads_str _) <| lreads_last rfl <| lreads_bytes _
  | heartbeat g n m => cases hv; exact lreads_cons rfl (lreads_str _) <| lreads_cons rfl (lreads_int32 _) <| lreads_last rfl <| lreads_str _
  | leaveGroup g m => cases hv; exact lreads_cons rfl (lreads_str _) <| lreads_last rfl <| lreads_str _
  | syncGroup g n m as =>
    cases hv
    exact lreads_cons rfl (lreads_str _) <| lreads_cons rfl (lreads_int32 _) <| lreads_cons rfl (lreads_str _) <|
      lreads_last rfl <| lreads_array rfl (e := .struct (fld _ .string <| fld _ .bytes .nil)) _ _ fun p =>
        lreads_struct <| lreads_cons rfl (lreads_str _) <| lreads_last rfl <| lreads_bytes _
  | apiVersions => cases hv

theorem reads_acceptedHeader {k v : I16} {c : I32} {client : Option Bytes} {b : Bytes} (h : acceptedHeader k v c client b) : Reads readHeader b (k, v, c) := by
  obtain ⟨b1, b2, rfl, h1, h2⟩ := h
  have h1 : b1 = _ := h1
  subst h1
  have hc : Reads peekString b2 (client.getD []) := by
    have := ((reads_accepted_nullableStr h2).map fun s : Option Bytes => some (s.getD [])).map fun s : Option Bytes => s.getD []
    exact this.congr fun r off => by rw [peekString, peekObject, peekObjectWorker]
  exact Reads.bind (f := fun r next (hdr : Option (Ty.struct headerFields).den) =>
    (peekString r next).map fun _ => let (k, v, c, ()) := hdr.getD (0, 0, 0, ()); (k, v, c)) (reads_header k v c) (hc.map fun _ => (k, v, c))

end KM
