import Verif.Props.Wire
/-
Property C103: which byte strings are requests. The dispatcher on every byte string.
-/
namespace KM.Props
open KM Spec

/-- **C103**: for every byte string `m`, of whatever size: it begins with an accepted message of a request whose header and body fit the read buffer, and the mock does
with it what it does with the proper message of that request (followed by the same bytes); or it is rejected at once, with an error or a panic, before any
action on the store, the clock or the connection. -/
theorem C103 (sv : Server) (m : Bytes) (n : Nat) :
    (∃ req c client a extra, Accepted req c client a ∧ req.WellFormed ∧ (∀ x ∈ client, ShortStr x) ∧ FitsBuffer req c client ∧ m = a ++ extra ∧
      a.length = (req.message c client).length ∧ dispatcher sv ⟨m⟩ n = dispatcher sv ⟨req.message c client ++ extra⟩ n) ∨
    dispatcher sv ⟨m⟩ n = .ret .err ∨ dispatcher sv ⟨m⟩ n = .panic := by
  rw [dispatcher_eq]
  cases hr : readHeader ⟨m⟩ 0 with
  | short => exact .inr (.inl rfl)
  | panic => exact .inr (.inr rfl)
  | ok next hdr =>
    obtain ⟨h, h1, h2, client, h3⟩ := parses_header ⟨m⟩ 0 _ _ (Nat.zero_le _) hr
    obtain ⟨k, v, c⟩ := hdr
    obtain ⟨h4, h5⟩ := at_front h1
    rw [Nat.zero_add] at h2
    subst h2
    dsimp only at h3 ⊢
    rw [apiTable_get]
    cases hs : serves k.toInt v.toInt with
    | none => exact .inr (.inl rfl)
    | some api =>
      dsimp only
      rw [show Reader.discard ⟨m⟩ h.length = ⟨m.drop h.length⟩ from rfl]
      rcases handler_inv api sv (m.drop h.length) with e | e | ⟨req, b, extra, h6, h7, h8, h9, h10⟩
      · rw [e]; exact .inr (.inl rfl)
      · rw [e]; exact .inr (.inr rfl)
      · subst h6
        have hp := entry_pair hs
        have ek : req.api.1 = k := by rw [hp]
        have ev : req.api.2 = v := by rw [hp]
        rw [← ek, ← ev] at h3
        have hc : ∀ x ∈ client, ShortStr x := by
          obtain ⟨_, _, _, _, q⟩ := h3
          exact short_nullableStr q
        have wf := accepted_wf h7
        have l1 := header_like _ _ _ _ h h3
        have l2 := accepted_like req b h7
        refine .inl ⟨req, c, client, h ++ b, extra, ⟨h, b, rfl, h3, h7⟩, wf, hc, ⟨by omega, by omega⟩, by rw [List.append_assoc, ← h9]; exact h4, ?_, ?_⟩
        · rw [Request.message, List.length_append, List.length_append, l1, l2]
        · rw [dispatcher_request wf sv c client hc (by omega) (by omega), h10]
          exact serve_answer sv req c n extra

/-- **C103**: a message that is answered (at any point of the run something has been sent) is an accepted message of a request, and is answered as that request. -/
theorem C103_answered {sv : Server} {m : Bytes} {w w' : World} {tr : List Ev} {q : Prog DRes} (he : Exec w (dispatcher sv ⟨m⟩ m.length) tr w' q)
    (hs : sent (own tr) ≠ [] ∨ q = .ret .done) :
    ∃ req c client, Accepted req c client m ∧ req.WellFormed ∧ (∀ x ∈ client, ShortStr x) ∧ FitsBuffer req c client ∧ m.length = (req.message c client).length ∧
      dispatcher sv ⟨m⟩ m.length = dispatcher sv ⟨req.message c client⟩ (req.message c client).length := by
  rcases C103 sv m m.length with ⟨req, c, client, a, extra, h1, h2, h3, h4, rfl, h6, h7⟩ | h | h
  · by_cases hx : extra = []
    · subst hx
      rw [List.append_nil] at h7 ⊢
      rw [List.append_nil] at h7
      exact ⟨req, c, client, h1, h2, h3, h4, h6, by rw [h7, h6]⟩
    · have hl : (a ++ extra).length = (req.message c client ++ extra).length := by rw [List.length_append, List.length_append, h6]
      rw [h7, hl] at he
      have := C17_surplus h2 h3 hx he
      rcases hs with hs | hs
      · exact absurd this.2 hs
      · exact absurd hs this.1
  · rw [h] at he
    obtain ⟨rfl, e⟩ := own_ret_inv he.own
    rw [e] at hs
    rcases hs with hs | hs
    · exact absurd rfl hs
    · cases hs
  · rw [h] at he
    obtain ⟨rfl, e⟩ := own_panic_inv he.own
    rw [e] at hs
    rcases hs with hs | hs
    · exact absurd rfl hs
    · cases hs

/-- Conversely every accepted message of a request that fits the read buffer is processed as the proper message of the request. -/
theorem C103_accepted (sv : Server) {req : Request} {c : I32} {client : Option Bytes} {m : Bytes} (ha : Accepted req c client m) (hf : FitsBuffer req c client) (n : Nat) :
    dispatcher sv ⟨m⟩ n = dispatcher sv ⟨req.message c client⟩ n := by
  have := dispatcher_accepted sv ha hf [] n
  rwa [List.append_nil, List.append_nil] at this

/-! ### Without absent strings there is one message for each request -/

/-- The set has no other element. -/
def Just (L : Lang) (b : Bytes) : Prop := ∀ x, L x → x = b

theorem Just.only (b : Bytes) : Just (.only b) b := fun _ h => h

theorem Just.cat {L M : Lang} {b c : Bytes} (h1 : Just L b) (h2 : Just M c) : Just (L ++ M) (b ++ c) := by
  rintro x ⟨x1, x2, rfl, p, q⟩
  rw [h1 x1 p, h2 x2 q]

theorem just_str {s : Bytes} (h : s ≠ []) : Just (Loose.str s) (str s) := by
  rintro x (⟨_, rfl⟩ | ⟨e, _⟩)
  · rfl
  · exact absurd e h

theorem just_nullableStr {s : Option Bytes} (h : s ≠ none) : Just (Loose.nullableStr s) (nullableStr s) := by
  cases s with
  | none => exact absurd rfl h
  | some s => exact fun _ h => h.2

theorem just_array {α : Type} {f : α → Lang} {g : α → Bytes} {xs : List α} (h : ∀ x ∈ xs, Just (f x) (g x)) : Just (Loose.array f xs) (array g xs) := by
  have items : ∀ ys : List α, (∀ x ∈ ys, Just (f x) (g x)) → Just (Loose.items f ys) (ys.flatMap g) := by
    intro ys
    induction ys with
    | nil => intro _; exact Just.only []
    | cons y ys ih =>
      intro h
      rw [List.flatMap_cons]
      exact (h y (List.mem_cons_self ..)).cat (ih fun x hx => h x (List.mem_cons_of_mem _ hx))
  exact fun x hx => (Just.only _).cat (items xs h) x hx.2

theorem accepted_just {req : Request} (h : req.Full) : Just req.accepted req.body := by
  cases req with
  | fetch q =>
    simp only [Request.accepted, Request.body, List.append_assoc]
    exact (Just.only _).cat <| (Just.only _).cat <| (Just.only _).cat <| just_array fun t ht => (just_str (h t ht)).cat <| just_array fun p _ =>
      (Just.only _).cat <| (Just.only _).cat <| Just.only _
  | listOffsets q => exact (Just.only _).cat <| just_array fun t ht => (just_str (h t ht)).cat <| just_array fun p _ => (Just.only _).cat <| Just.only _
  | metadata ts => exact just_array fun t ht => just_str (h t ht)
  | offsetCommit q =>
    simp only [Request.accepted, Request.body, List.append_assoc]
    exact (just_str h.1).cat <| (Just.only _).cat <| (just_str h.2.1).cat <| (Just.only _).cat <| just_array fun t ht => (just_str (h.2.2 t ht).1).cat <|
      just_array fun p hp => (Just.only _).cat <| (Just.only _).cat <| just_nullableStr ((h.2.2 t ht).2 p hp)
  | offsetFetch q => exact (just_str h.1).cat <| just_array fun t ht => (just_str (h.2 t ht)).cat <| just_array fun p _ => Just.only _
  | findCoordinator key => exact just_str h
  | joinGroup =>
    simp only [Request.accepted, Request.body, List.append_assoc]
    exact (just_str h.1).cat <| (Just.only _).cat <| (Just.only _).cat <| (just_str h.2.1).cat <| (just_str h.2.2.1).cat <| just_array fun t ht =>
      (just_str (h.2.2.2 t ht)).cat fun _ hb => hb.2
  | heartbeat =>
    simp only [Request.accepted, Request.body, List.append_assoc]
    exact (just_str h.1).cat <| (Just.only _).cat <| just_str h.2
  | leaveGroup => exact (just_str h.1).cat <| just_str h.2
  | syncGroup =>
    simp only [Request.accepted, Request.body, List.append_assoc]
    exact (just_str h.1).cat <| (Just.only _).cat <| (just_str h.2.1).cat <| just_array fun t ht => (just_str (h.2.2 t ht)).cat fun _ hb => hb.2
  | apiVersions => exact Just.only _

/-- **C103**: if no string of the request is empty or null, and the client id is not null, its proper message is the only accepted one. -/
theorem C103_exact {req : Request} (hr : req.Full) {c : I32} {client : Bytes} {m : Bytes} (h : Accepted req c (some client) m) : m = req.message c (some client) := by
  have hh : Just (acceptedHeader req.api.1 req.api.2 c (some client)) (header req.api.1 req.api.2 c (some client)) := (Just.only _).cat (just_nullableStr (by simp))
  exact hh.cat (accepted_just hr) m h

/-- A proper message is accepted. -/
theorem C103_proper {req : Request} (h : req.WellFormed) (c : I32) {client : Option Bytes} (hc : ∀ x ∈ client, ShortStr x) : Accepted req c client (req.message c client) :=
  accepted_proper h c hc

theorem value_inj {req req' : Request} (ha : req.api = req'.api) (hv : ∀ fs v v', req.value = some ⟨fs, v⟩ → req'.value = some ⟨fs, v'⟩ → v = v') : req = req' := by
  have unpair : ∀ ps : List (Bytes × Bytes), (ps.map fun p => (p.1, some p.2, ())).map (fun x : Bytes × Option Bytes × Unit => (x.1, x.2.1.getD [])) = ps := by
    intro ps; simp [Function.comp_def]
  have pair : ∀ {ps qs : List (Bytes × Bytes)}, (ps.map fun p => (p.1, some p.2, ())) = (qs.map fun p => (p.1, some p.2, ())) → ps = qs := by
    intro ps qs h
    rw [← unpair ps, h, unpair]
  cases req <;> cases req' <;> first
    | (exfalso; revert ha; simp only [Request.api]; decide)
    | rfl
    | skip
  · rename_i q q'
    have := congrArg FetchRequest.ofDen (hv _ _ _ rfl rfl)
    rw [FetchRequest.ofDen_toDen, FetchRequest.ofDen_toDen] at this
    rw [this]
  · rename_i q q'
    have := congrArg ListOffsetsRequest.ofDen (hv _ _ _ rfl rfl)
    rw [ListOffsetsRequest.ofDen_toDen, ListOffsetsRequest.ofDen_toDen] at this
    rw [this]
  · have := hv _ _ _ rfl rfl
    simp only [Prod.mk.injEq, Option.some.injEq, and_true] at this
    rw [this]
  · rename_i q q'
    have := congrArg CommitRequest.ofDen (hv _ _ _ rfl rfl)
    rw [CommitRequest.ofDen_toDen, CommitRequest.ofDen_toDen] at this
    rw [this]
  · rename_i q q'
    have := congrArg OffsetFetchRequest.ofDen (hv _ _ _ rfl rfl)
    rw [OffsetFetchRequest.ofDen_toDen, OffsetFetchRequest.ofDen_toDen] at this
    rw [this]
  · have := hv _ _ _ rfl rfl
    simp only [Prod.mk.injEq, and_true] at this
    rw [this]
  · have := hv _ _ _ rfl rfl
    simp only [Prod.mk.injEq, Option.some.injEq, and_true] at this
    obtain ⟨h1, h2, h3, h4, h5, h6⟩ := this
    rw [h1, h2, h3, h4, h5, pair h6]
  · have := hv _ _ _ rfl rfl
    simp only [Prod.mk.injEq, and_true] at this
    obtain ⟨h1, h2, h3⟩ := this
    rw [h1, h2, h3]
  · have := hv _ _ _ rfl rfl
    simp only [Prod.mk.injEq, and_true] at this
    obtain ⟨h1, h2⟩ := this
    rw [h1, h2]
  · have := hv _ _ _ rfl rfl
    simp only [Prod.mk.injEq, Option.some.injEq, and_true] at this
    obtain ⟨h1, h2, h3, h4⟩ := this
    rw [h1, h2, h3, pair h4]

/-- Two byte strings that are read to values from the same data. -/
theorem reads_agree {α : Type} {dec : Reader → Nat → Res α} {b b' e e' : Bytes} {v v' : α} (h : Reads dec b v) (h' : Reads dec b' v') (hl : b.length ≤ 4096)
    (hl' : b'.length ≤ 4096) (he : b ++ e = b' ++ e') : v = v' ∧ b = b' ∧ e = e' := by
  have h1 := (h ⟨b ++ e⟩ 0 (Nat.zero_le _)).1 (e.take (4096 - b.length)) (by rw [window_take, List.drop_zero, List.take_append, List.take_of_length_le hl])
  have h2 := (h' ⟨b' ++ e'⟩ 0 (Nat.zero_le _)).1 (e'.take (4096 - b'.length)) (by rw [window_take, List.drop_zero, List.take_append, List.take_of_length_le hl'])
  rw [he, h2, Nat.zero_add, Nat.zero_add] at h1
  injection h1 with h3 h4
  obtain ⟨h5, h6⟩ := List.append_inj he h3.symm
  exact ⟨h4.symm, h5, h6⟩

/-- **C103**: no byte string begins with accepted messages of two different requests (that fit the read buffer). -/
theorem C103_unambiguous {req req' : Request} {c c' : I32} {client client' : Option Bytes} {a a' e e' : Bytes} (h : Accepted req c client a) (hf : FitsBuffer req c client)
    (h' : Accepted req' c' client' a') (hf' : FitsBuffer req' c' client') (he : a ++ e = a' ++ e') : req = req' ∧ c = c' ∧ client = client' ∧ a = a' := by
  obtain ⟨x, b, rfl, hx, hb⟩ := h
  obtain ⟨x', b', rfl, hx', hb'⟩ := h'
  have lx : x.length ≤ 4096 := by rw [header_like _ _ _ _ x hx]; exact hf.1
  have lx' : x'.length ≤ 4096 := by rw [header_like _ _ _ _ x' hx']; exact hf'.1
  have lb : b.length ≤ 4096 := by rw [accepted_like req b hb]; exact hf.2
  have lb' : b'.length ≤ 4096 := by rw [accepted_like req' b' hb']; exact hf'.2
  rw [List.append_assoc, List.append_assoc] at he
  obtain ⟨e1, rfl, e2⟩ := reads_agree (reads_acceptedHeader hx) (reads_acceptedHeader hx') lx lx' he
  injection e1 with e3 e4
  injection e4 with e4 e5
  have hapi : req.api = req'.api := Prod.ext e3 e4
  have hcl : client = client' := by
    obtain ⟨y, z, hy, p, q⟩ := hx
    obtain ⟨y', z', hy', p', q'⟩ := hx'
    have p : y = _ := p
    have p' : y' = _ := p'
    rw [e3, e4, e5] at p
    subst p p'
    rw [hy] at hy'
    have hz := List.append_cancel_left hy'
    subst hz
    have lz : z.length ≤ 4096 := by rw [hy, List.length_append] at lx; omega
    exact (reads_agree (e := []) (e' := []) (reads_accepted_nullableStr q) (reads_accepted_nullableStr q') lz lz rfl).1
  have key : ∀ fs v v', req.value = some ⟨fs, v⟩ → req'.value = some ⟨fs, v'⟩ → v = v' ∧ b = b' ∧ e = e' := fun fs v v' h1 h2 =>
    reads_agree (accepted_reads h1 b hb) (accepted_reads h2 b' hb') lb lb' e2
  have hreq := value_inj hapi fun fs v v' h1 h2 => (key fs v v' h1 h2).1
  subst hreq
  refine ⟨rfl, e5, hcl, ?_⟩
  cases hv : req.value with
  | none =>
    cases req with
    | apiVersions => rw [show b = [] from hb, show b' = [] from hb']
    | _ => cases hv
  | some y => rw [(key y.1 y.2 y.2 hv hv).2.1]

/-- What the mock sends for a message that it accepts. -/
theorem dispatched_sent {sv : Server} {req : Request} {c : I32} {client : Option Bytes} {m : Bytes} (ha : Accepted req c client m) (hf : FitsBuffer req c client) {w w' : World}
    {tr : List Ev} (he : Exec w (dispatcher sv ⟨m⟩ m.length) tr w' (.ret .done)) (hs : AllSent (own tr)) : sent (own tr) ≠ [] := by
  rw [C103_accepted sv ha hf] at he
  rcases request_run (accepted_wellFormed ha) (accepted_client ha) hf.1 hf.2 he hs trivial with ⟨e, _⟩ | ⟨_, _, _, _, _, ⟨_, e, _⟩ | ⟨payload, _, _, e, _⟩⟩
  · cases e
  · cases e
  · rw [e]
    intro hn
    have := responseBytes_length c payload
    rw [hn] at this
    simp at this
    omega

/-- **C103** on a connection of the running mock: if bytes are sent while message `m` is processed, `m` is an accepted message of a request, and what happens
is a run of the mock's work for the proper message of that request. -/
theorem C103_served {sv : Server} {clock : Int} {k : Nat} {m : Bytes} {t1 tr : List SEv} {s1 s2 : Sys} (h : Serves sv clock k m t1 s1 tr s2)
    (hs : sent (actsOf k tr) ≠ []) :
    ∃ req c client, Accepted req c client m ∧ req.WellFormed ∧ (∀ x ∈ client, ShortStr x) ∧ FitsBuffer req c client ∧
      ∃ ctx es res, Exec (s1.view ctx) (dispatcher sv ⟨req.message c client⟩ (req.message c client).length) es (s2.view ctx) (.ret res) ∧
        own es = actsOf k tr ∧ effects es = effectsOf tr := by
  obtain ⟨ctx, es, res, h1, h2, h3⟩ := h.dispatches
  obtain ⟨req, c, client, a1, a2, a3, a4, _, a6⟩ := C103_answered h1 (.inl (by rw [h2]; exact hs))
  rw [a6] at h1
  exact ⟨req, c, client, a1, a2, a3, a4, ctx, es, res, h1, h2, h3⟩

/-! ### Examples -/

/-- A heartbeat of client "c" with a group id of length -5: accepted as the heartbeat with an empty group id, though it is not the proper message of any request. -/
def looseBeat : Bytes := [0, 12, 0, 0, 0, 0, 0, 7, 0, 1, 99, 255, 251, 0, 0, 0, 3, 0, 1, 49]

theorem looseBeat_accepted : Accepted (.heartbeat [] 3 [49]) 7 (some [99]) looseBeat := by
  refine ⟨[0, 12, 0, 0, 0, 0, 0, 7, 0, 1, 99], [255, 251, 0, 0, 0, 3, 0, 1, 49], rfl, ⟨[0, 12, 0, 0, 0, 0, 0, 7], [0, 1, 99], rfl, rfl, ?_, rfl⟩,
    [255, 251], [0, 0, 0, 3, 0, 1, 49], rfl, .inr ⟨rfl, -5, by decide, rfl⟩, [0, 0, 0, 3], [0, 1, 49], rfl, rfl, .inl ⟨?_, rfl⟩⟩ <;>
  · unfold ShortStr; decide

theorem C103_example : Accepted (.heartbeat [] 3 [49]) 7 (some [99]) looseBeat ∧ FitsBuffer (.heartbeat [] 3 [49]) 7 (some [99]) ∧
    (∀ req c client, req.WellFormed → (∀ x ∈ client, ShortStr x) → FitsBuffer req c client → looseBeat ≠ req.message c client) ∧
    (∃ tr w', Exec (World.init 0) (dispatcher ⟨9092, []⟩ ⟨looseBeat⟩ looseBeat.length) tr w' (.ret .done) ∧ sent (own tr) = [0, 0, 0, 6, 0, 0, 0, 7, 0, 0]) ∧
    -- a heartbeat that ends within the member id, and one for an unknown version
    dispatcher ⟨9092, []⟩ ⟨looseBeat.dropLast⟩ 19 = .ret .err ∧ dispatcher ⟨9092, []⟩ ⟨0 :: 12 :: 0 :: 9 :: looseBeat.drop 4⟩ 20 = .ret .err := by
  have fits : FitsBuffer (.heartbeat [] 3 [49]) 7 (some [99]) := by unfold FitsBuffer; decide
  refine ⟨looseBeat_accepted, fits, ?_, ?_, rfl, rfl⟩
  · intro req c client h1 h2 h3 h4
    obtain ⟨rfl, rfl, rfl, e⟩ := C103_unambiguous (e := []) (e' := []) looseBeat_accepted fits (C103_proper h1 c h2) h3 (by rw [List.append_nil, List.append_nil]; exact h4)
    exact absurd e (by decide)
  · exact ⟨_, _, Prog.run_ret (sch := go 20) rfl, by decide +kernel⟩

end KM.Props
