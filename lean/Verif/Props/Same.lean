import Verif.Props.Turns
import Verif.Spec.Same
/-
C116: the same test gets the same answers.
-/
namespace KM.Props
open KM Spec

/-- The same request, whatever its correlation id and its answer, or the same call. -/
inductive SameAsk : Happening → Happening → Prop where
  | request (req : Request) (c c' : I32) (b b' : Bytes) : SameAsk (.answered req c b) (.answered req c' b')
  | post (call : PostCall) : SameAsk (.posted call) (.posted call)
  | create (n : Int) (topics : List Bytes) : SameAsk (.created n topics) (.created n topics)
  | reset (topic : Bytes) (n : Int) (group : Bytes) (o : I64) : SameAsk (.reset topic n group o) (.reset topic n group o)

/-- The test gives the time of the record, if it posts one: it does not use SimplePost. -/
def Timed : Happening → Prop
  | .posted call => call.extended ≠ none
  | _ => True

/-! ### The machine on the data -/

theorem sameData_refl (exact : Bool) (d : Data) : SameData exact d d := by
  have hl : ∀ l : List Record, List.Forall₂ (SameRecord exact) l l := by
    intro l
    induction l with
    | nil => exact .nil
    | cons r l ih => exact .cons ⟨rfl, rfl, rfl, .refl _, fun _ => rfl⟩ ih
  refine ⟨fun t p => ?_, fun _ _ _ => rfl⟩
  cases d.log t p with
  | none => exact .none
  | some l => exact .some (hl l)

theorem rel_isSome {α β : Type} {R : α → β → Prop} {a : Option α} {b : Option β} (h : Option.Rel R a b) : a.isSome = b.isSome := by cases h <;> rfl

theorem _root_.KM.Spec.SameData.isSome {exact : Bool} {d d' : Data} (h : SameData exact d d') (t : Bytes) (p : I32) : (d.log t p).isSome = (d'.log t p).isSome := rel_isSome (h.log t p)

theorem _root_.KM.Spec.SameData.log_getD {exact : Bool} {d d' : Data} (h : SameData exact d d') (t : Bytes) (p : I32) :
    List.Forall₂ (SameRecord exact) ((d.log t p).getD []) ((d'.log t p).getD []) := by
  have := h.log t p
  revert this
  generalize d.log t p = a
  generalize d'.log t p = b
  rintro (h | _)
  · exact h
  · exact .nil

theorem _root_.KM.Spec.SameData.records {exact : Bool} {d d' : Data} (h : SameData exact d d') (t : Bytes) (par : FetchPartition) : List.Forall₂ (SameRecord exact) (d.records t par) (d'.records t par) :=
  List.forall₂_drop _ (h.log_getD t par.partition)

theorem messages_eq {exact : Bool} {l l' : List Record} (h : List.Forall₂ (SameRecord exact) l l') (f : Nat → I64) :
    ((l.mapIdx fun i r => ((f i, r.timestamp, r.key, r.value) : MessageView)).map fun m => (m.1, m.2.2.1, m.2.2.2)) =
      ((l'.mapIdx fun i r => ((f i, r.timestamp, r.key, r.value) : MessageView)).map fun m => (m.1, m.2.2.1, m.2.2.2)) ∧
    (exact = true → (l.mapIdx fun i r => ((f i, r.timestamp, r.key, r.value) : MessageView)) = l'.mapIdx fun i r => ((f i, r.timestamp, r.key, r.value) : MessageView)) := by
  induction h generalizing f with
  | nil => exact ⟨rfl, fun _ => rfl⟩
  | cons h _ ih =>
    obtain ⟨h1, h2⟩ := ih fun i => f (i + 1)
    simp only [List.mapIdx_cons, List.map_cons]
    refine ⟨?_, fun he => ?_⟩
    · rw [h.key, h.value, h1]
    · rw [h.key, h.value, h.time he, h2 he]

theorem same_fetch {exact : Bool} {d d' : Data} (h : SameData exact d d') (q : FetchRequest) :
    untimed (fetchReply d q) = untimed (fetchReply d' q) ∧ (exact = true → fetchReply d q = fetchReply d' q) := by
  have hw : ∀ t par, d.highWatermark t par = d'.highWatermark t par := fun t par => by
    unfold Data.highWatermark
    rw [(h.records t par).length_eq]
  refine ⟨?_, fun he => ?_⟩
  · unfold untimed fetchReply
    simp only [List.map_map]
    apply List.map_congr_left
    intro x _
    simp only [Function.comp, List.map_map]
    congr 1
    apply List.map_congr_left
    intro par _
    simp only [Function.comp]
    rw [hw]
    congr 3
    exact (messages_eq (h.records _ _) _).1
  · unfold fetchReply
    apply List.map_congr_left
    rintro ⟨t, n⟩ _
    simp only
    congr 1
    apply List.map_congr_left
    intro par _
    rw [hw]
    congr 3
    exact (messages_eq (h.records _ _) _).2 he

theorem stamp_eq {l l' : List Record} (h : List.Forall₂ (SameRecord true) l l') (i : Nat) : stamp l i = stamp l' i := by
  unfold stamp
  induction h generalizing i with
  | nil => rfl
  | cons h _ ih =>
    cases i with
    | zero => simp [h.time rfl]
    | succ i => simpa using ih i

theorem takeWhile_eq {l l' : List Record} (h : List.Forall₂ (SameRecord true) l l') (T : Int) :
    (l.takeWhile fun r => decide (T ≤ r.timestamp.toInt)).length = (l'.takeWhile fun r => decide (T ≤ r.timestamp.toInt)).length := by
  induction h with
  | nil => rfl
  | cons h _ ih =>
    simp only [List.takeWhile_cons, h.time rfl]
    split
    · simp [ih]
    · rfl

theorem same_position {exact : Bool} {a b : Option (List Record)} (h : Option.Rel (List.Forall₂ (SameRecord exact)) a b) (now now' : I64) (qp : ListOffsetsPartition) :
    SamePosition exact qp (listReply a now qp) (listReply b now' qp) := by
  cases h with
  | none => exact ⟨rfl, rfl, fun _ => rfl, fun _ _ => rfl⟩
  | @some l l' h =>
    have hn := h.length_eq
    unfold listReply
    simp only
    split
    · rename_i h1
      exact ⟨rfl, rfl, fun _ => by simp [hn], fun _ h2 => absurd h1 h2⟩
    · rename_i h1
      split
      · exact ⟨rfl, rfl, fun _ => rfl, fun he _ => by subst he; exact stamp_eq h 0⟩
      · rename_i h2
        have ht : exact = true → timePosition l qp.timestamp.toInt = timePosition l' qp.timestamp.toInt := by
          intro he
          subst he
          unfold timePosition
          rw [hn, takeWhile_eq (List.rel_reverse h)]
        refine ⟨rfl, rfl, fun h3 => ?_, fun he _ => ?_⟩
        · rcases h3 with h3 | h3 | h3
          · simp only [ht h3]
          · exact absurd h3 h1
          · exact absurd h3 h2
        · simp only [ht he]
          subst he
          exact stamp_eq h _

theorem all3_of {α β : Type} {R S : α → β → Prop} {T : α → β → β → Prop} (h : ∀ a b c, R a b → S a c → T a b c) {as : List α} {bs cs : List β}
    (hb : List.Forall₂ R as bs) (hc : List.Forall₂ S as cs) : All3 T as bs cs := by
  induction hb generalizing cs with
  | nil => cases hc; exact .nil
  | cons h1 _ ih =>
    cases hc with
    | cons h2 hc => exact .cons (h _ _ _ h1 h2) (ih hc)

theorem same_commitReply {exact : Bool} {d d' : Data} (h : SameData exact d d') (q : CommitRequest) : commitReply d q = commitReply d' q := by
  unfold commitReply
  simp only [h.isSome]

theorem same_offsetReply {exact : Bool} {d d' : Data} (h : SameData exact d d') (q : OffsetFetchRequest) (n : Bytes) : offsetReply d q n = offsetReply d' q n := by
  unfold offsetReply
  simp only [h.isSome, h.offset]

theorem same_post {exact : Bool} {d d' : Data} (h : SameData exact d d') (t : Bytes) (p : I32) {r r' : Record} (hr : SameRecord exact r r') : SameData exact (d.post t p r) (d'.post t p r') := by
  refine ⟨fun t' p' => ?_, h.offset⟩
  unfold Data.post
  simp only
  split
  · exact .some (List.rel_append (h.log_getD t p) (.cons hr .nil))
  · exact h.log t' p'

theorem same_create {exact : Bool} {d d' : Data} (h : SameData exact d d') (p : I32) (ts : List Bytes) : SameData exact (d.create p ts) (d'.create p ts) := by
  refine ⟨fun t' p' => ?_, h.offset⟩
  unfold Data.create
  simp only
  split
  · exact .some (h.log_getD t' p')
  · exact h.log t' p'

theorem same_reset {exact : Bool} {d d' : Data} (h : SameData exact d d') (t : Bytes) (p : I32) (g : Bytes) (o : I64) : SameData exact (d.reset t p g o) (d'.reset t p g o) := by
  refine ⟨h.log, fun t' p' g' => ?_⟩
  unfold Data.reset
  simp only [h.isSome, h.offset]

theorem same_commit {exact : Bool} {d d' : Data} (h : SameData exact d d') (q : CommitRequest) : SameData exact (d.commit q) (d'.commit q) := by
  refine ⟨h.log, fun t p g => ?_⟩
  unfold Data.commit commitNext
  simp only [h.isSome, h.offset]

theorem nodup_of_names {x : List OffsetFetchRespTopic} (h : (x.map (·.name)).Nodup) : x.Nodup := List.Pairwise.of_map _ (fun _ _ h e => h (congrArg _ e)) h

theorem mem_offsets {d : Data} {q : OffsetFetchRequest} {x : List OffsetFetchRespTopic} (h2 : ∀ n, n ∈ x.map (·.name) ↔ offsetReply d q n ≠ [])
    (h3 : ∀ rt ∈ x, rt.partitions = offsetReply d q rt.name) (rt : OffsetFetchRespTopic) : rt ∈ x ↔ rt.partitions = offsetReply d q rt.name ∧ rt.partitions ≠ [] := by
  constructor
  · intro h
    refine ⟨h3 rt h, ?_⟩
    rw [h3 rt h]
    exact (h2 rt.name).1 (List.mem_map_of_mem h)
  · rintro ⟨e, hn⟩
    rw [e] at hn
    obtain ⟨rt', h4, h5⟩ := List.mem_map.1 ((h2 rt.name).2 hn)
    have h6 := h3 rt' h4
    have : rt' = rt := by
      cases rt; cases rt'
      simp only at *
      subst h5
      rw [e, h6]
    exact this ▸ h4

/-- The same use of the same data. -/
theorem same_step {exact : Bool} {d d' d1 d1' : Data} {c c1 e e1 : Int} {x x' : Happening} {u u' : Use} (h : SameData exact d d') (hx : SameAsk x x') (ht : exact = true → Timed x)
    (hu : Received x u) (hu' : Received x' u') (hs : u.Step d c d1 c1) (hs' : u'.Step d' e d1' e1) : SameUse exact u u' ∧ SameData exact d1 d1' := by
  cases hx with
  | post call =>
    cases hu; cases hu'
    refine ⟨.post .., ?_⟩
    obtain ⟨r, a1, a2, a3, rfl, a4⟩ := hs
    obtain ⟨r', b1, b2, b3, rfl, b4⟩ := hs'
    apply same_post h
    cases he : call.extended with
    | none =>
      rw [he] at a4 b4
      refine ⟨a1.trans b1.symm, a2.trans b2.symm, a3.trans b3.symm, by rw [a4.1, b4.1], fun hx => ?_⟩
      exact absurd he (ht hx)
    | some p =>
      obtain ⟨hs, ts⟩ := p
      rw [he] at a4 b4
      exact ⟨a1.trans b1.symm, a2.trans b2.symm, a3.trans b3.symm, a4.1.trans b4.1.symm, fun _ => a4.2.trans b4.2.symm⟩
  | create n topics =>
    cases hu; cases hu'
    cases hs; cases hs'
    exact ⟨.create .., same_create h _ _⟩
  | reset t n g o =>
    cases hu; cases hu'
    cases hs; cases hs'
    exact ⟨.reset .., same_reset h _ _ _ _⟩
  | request req c c' b b' =>
    cases hu with
    | fetch hb =>
      cases hu' with
      | other h' => cases h'
      | fetch hb' =>
        obtain ⟨e1, rfl⟩ := hs
        obtain ⟨e2, rfl⟩ := hs'
        rw [e1, e2]
        exact ⟨.fetch (same_fetch h _).1 (same_fetch h _).2, h⟩
    | listOffsets hb =>
      cases hu' with
      | other h' => cases h'
      | listOffsets hb' =>
        obtain ⟨rfl, e1⟩ := hs
        obtain ⟨rfl, e2⟩ := hs'
        refine ⟨.listOffsets (all3_of ?_ e1 e2), h⟩
        rintro qt rt rt' ⟨n1, p1⟩ ⟨n2, p2⟩
        refine ⟨n1.trans n2.symm, all3_of ?_ p1 p2⟩
        rintro qp rp rp' ⟨_, _, _, rfl⟩ ⟨_, _, _, rfl⟩
        exact same_position (h.log _ _) _ _ _
    | commit hb =>
      cases hu' with
      | other h' => cases h'
      | commit hb' =>
        obtain ⟨rfl, rfl⟩ := hs
        obtain ⟨rfl, rfl⟩ := hs'
        rw [same_commitReply h]
        exact ⟨.commit .., same_commit h _⟩
    | offsetFetch hb =>
      cases hu' with
      | other h' => cases h'
      | offsetFetch hb' =>
        obtain ⟨rfl, a1, a2, a3⟩ := hs
        obtain ⟨rfl, b1, b2, b3⟩ := hs'
        refine ⟨.offsetFetch ?_, h⟩
        rw [List.perm_ext_iff_of_nodup (nodup_of_names a1) (nodup_of_names b1)]
        intro rt
        rw [mem_offsets a2 a3, mem_offsets b2 b3, same_offsetReply h]
    | assign hb =>
      cases hu' with
      | other h' => cases h'
      | assign hb' =>
        obtain ⟨rfl, _, _, a⟩ := hs
        obtain ⟨rfl, _, _, b⟩ := hs'
        refine ⟨.assign fun t p => ?_, h⟩
        rw [a, b, h.isSome]
    | other ha =>
      cases hu' with
      | other h' =>
        cases hs; cases hs'
        exact ⟨.other, h⟩
      | _ => cases ha

theorem same_behaves {exact : Bool} {l l' : List Happening} (hl : List.Forall₂ SameAsk l l') (ht : exact = true → ∀ x ∈ l, Timed x) {d d' d1 d1' : Data} {c c1 e e1 : Int} {us us' : List Use}
    (h : SameData exact d d') (hu : List.Forall₂ Received l us) (hu' : List.Forall₂ Received l' us') (hb : Behaves d c us d1 c1) (hb' : Behaves d' e us' d1' e1) :
    List.Forall₂ (SameUse exact) us us' ∧ SameData exact d1 d1' := by
  induction hl generalizing d d' c e us us' with
  | nil =>
    cases hu; cases hu'; cases hb; cases hb'
    exact ⟨.nil, h⟩
  | cons hx _ ih =>
    cases hu with
    | cons h1 hu =>
      cases hu' with
      | cons h1' hu' =>
        cases hb with
        | cons _ s _ hb =>
          cases hb' with
          | cons _ s' _ hb' =>
            obtain ⟨a1, a2⟩ := same_step h hx (fun he => ht he _ (by simp)) h1 h1' s s'
            obtain ⟨b1, b2⟩ := ih (fun he y hy => ht he y (List.mem_cons_of_mem _ hy)) a2 hu hu' hb hb'
            exact ⟨.cons a1 b1, b2⟩

/-- C116: the same test gets the same answers. Two runs, each of a new mock that is used by one client or test at a time, with the same requests and calls in the same order. The runs can
differ in everything else: the time and the speed of the clock, the port, the connections and callers that are used, how messages are cut into pieces, the order in which the goroutines
make their steps, the order of Go's maps, what happens in between, the correlation ids. What the clients read is the same, and so are the data in the end, except for the times of records
that SimplePost posts, the time that ListOffsets gives with the offset of the end, the order of topics in the response to OffsetFetch and in the assignment, and the order of headers. Without
SimplePost (`exact`) the times are equal too, and so are the offsets for a time. -/
theorem C116 {sv sv' : Server} {clock clock' : Int} {tr tr' : List NEv} {n n' : Net} {l l' : List Happening} (exact : Bool)
    (h : OneAtATime sv clock tr n l) (h' : OneAtATime sv' clock' tr' n' l') (hl : List.Forall₂ SameAsk l l') (ht : exact = true → ∀ x ∈ l, Timed x)
    (hroom : ∀ t p, ∀ x ∈ (n.sys.view 0).log t p, wireSize x < 2 ^ 31) (hnames : ∀ t, (n.sys.view 0).hasTopic t → ShortStr t) (hs : ∀ c, SmallReplies sv (actsOf c (mocks tr)))
    (hroom' : ∀ t p, ∀ x ∈ (n'.sys.view 0).log t p, wireSize x < 2 ^ 31) (hnames' : ∀ t, (n'.sys.view 0).hasTopic t → ShortStr t)
    (hs' : ∀ c, SmallReplies sv' (actsOf c (mocks tr'))) :
    ∃ us us', List.Forall₂ Received l us ∧ List.Forall₂ Received l' us' ∧ List.Forall₂ (SameUse exact) us us' ∧ SameData exact (data n.sys) (data n'.sys) := by
  obtain ⟨us, h1, h2⟩ := C112 h hroom hnames hs
  obtain ⟨us', h1', h2'⟩ := C112 h' hroom' hnames' hs'
  obtain ⟨a, b⟩ := same_behaves hl ht (sameData_refl exact Data.empty) h1 h1' h2 h2'
  exact ⟨us, us', h1, h1', a, b⟩

/-! ### Requests that are not about the data -/

theorem exchange_payload {sv : Server} {clock : Int} {k : Nat} {req : Request} {c : I32} {t1 tr : List SEv} {s1 s2 : Sys} (h : Exchange sv clock k req c t1 s1 tr s2) {x : Option Bytes}
    (ha : answer sv req = .ret x) : ∃ payload, x = some payload ∧ sent (actsOf k tr) = responseBytes c payload := by
  obtain ⟨ctx, es, g1, g2, _⟩ := h.run
  obtain ⟨client, n, k1, k2, k3⟩ := g1.run
  rcases request_run g1.wellFormed k1 k2 g1.body k3 g1.sentAll g1.over with ⟨h1, _⟩ | ⟨ta, tb, w1, rfl, _, ⟨_, h1, _⟩ | ⟨payload, h1, _, h2, _⟩⟩
  · cases h1
  · cases h1
  · rw [ha] at h1
    obtain ⟨e, _⟩ := exec_ret_inv h1
    cases e
    exact ⟨payload, rfl, by rw [← g2, h2]⟩

theorem session_payload {sv : Server} {clock : Int} {s s' : Sys} {l : List Happening} (h : Session sv clock s l s') {req : Request} {c : I32} {b : Bytes} (hm : .answered req c b ∈ l)
    {x : Option Bytes} (ha : answer sv req = .ret x) : ∃ payload, x = some payload ∧ b = responseBytes c payload := by
  induction h with
  | nil => cases hm
  | idle _ _ _ ih => exact ih hm
  | request h _ _ _ ih =>
    rcases List.mem_cons.1 hm with e | hm
    · cases e; exact exchange_payload h ha
    · exact ih hm
  | post _ _ _ ih | create _ _ _ ih | reset _ _ _ ih =>
    rcases List.mem_cons.1 hm with e | hm
    · cases e
    · exact ih hm

theorem answer_aside {sv sv' : Server} (hp : sv.port = sv'.port) {req : Request} (ha : aside req = true) (hv : req ≠ .apiVersions) : ∃ x, answer sv req = .ret x ∧ answer sv' req = .ret x := by
  cases req <;> first | exact ⟨_, rfl, by simp only [answer, hp]⟩ | exact absurd rfl hv | exact absurd ha Bool.false_ne_true

/-- C116, the other requests: of two mocks with the same port, the responses to Metadata, FindCoordinator, JoinGroup, Heartbeat and LeaveGroup are the same bytes, for the same correlation id. -/
theorem C116_other {sv sv' : Server} {clock clock' : Int} {tr tr' : List NEv} {n n' : Net} {l l' : List Happening} (h : OneAtATime sv clock tr n l) (h' : OneAtATime sv' clock' tr' n' l')
    (hp : sv.port = sv'.port)
    (hroom : ∀ t p, ∀ x ∈ (n.sys.view 0).log t p, wireSize x < 2 ^ 31) (hnames : ∀ t, (n.sys.view 0).hasTopic t → ShortStr t) (hs : ∀ c, SmallReplies sv (actsOf c (mocks tr)))
    (hroom' : ∀ t p, ∀ x ∈ (n'.sys.view 0).log t p, wireSize x < 2 ^ 31) (hnames' : ∀ t, (n'.sys.view 0).hasTopic t → ShortStr t)
    (hs' : ∀ c, SmallReplies sv' (actsOf c (mocks tr'))) {req : Request} {c : I32} {b b' : Bytes} (hm : .answered req c b ∈ l) (hm' : .answered req c b' ∈ l')
    (ha : aside req = true) (hv : req ≠ .apiVersions) : b = b' := by
  obtain ⟨x, a1, a2⟩ := answer_aside hp ha hv
  obtain ⟨_, rfl, rfl⟩ := session_payload (h.session hroom hnames hs) hm a1
  obtain ⟨_, e, rfl⟩ := session_payload (h'.session hroom' hnames' hs') hm' a2
  cases e; rfl

end KM.Props
