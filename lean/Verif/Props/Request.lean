import Verif.Props.Api
import Verif.Props.ListOffsets
import Verif.Props.Fetch
/-
Properties C17, C18: rejected and accepted requests.
-/
namespace KM.Props
open KM Spec

/-! ### Programs that cannot panic -/

/-- No path of the program leads to a panic, whatever the results of its actions. -/
def _root_.KM.Prog.NoPanic : {α : Type} → Prog α → Prop
  | _, .ret _ => True
  | _, .panic => False
  | _, .act _ k => ∀ r, (k r).NoPanic
  | _, .loop _ body k => (∀ s, (body s).NoPanic) ∧ ∀ b, (k b).NoPanic

theorem noPanic_bind {α β : Type} {p : Prog α} {f : α → Prog β} (hp : p.NoPanic) (hf : ∀ v, (f v).NoPanic) : (p.bind f).NoPanic := by
  induction p with
  | ret v => exact hf v
  | panic => cases hp
  | act a k ih => exact fun r => ih r (hp r) hf
  | loop s body k _ ih => exact ⟨hp.1, fun b => ih b (hp.2 b) hf⟩

theorem noPanic_map {α β : Type} {p : Prog α} (f : α → β) (hp : p.NoPanic) : (p.map f).NoPanic := noPanic_bind hp fun _ => trivial

theorem noPanic_forEach {α β : Type} {f : α → Prog β} (xs : List α) (hf : ∀ x, (f x).NoPanic) : (Prog.forEach f xs).NoPanic := by
  induction xs with
  | nil => trivial
  | cons x xs ih => exact noPanic_bind (hf x) fun _ => noPanic_bind ih fun _ => trivial

theorem own_noPanic {α : Type} {p q : Prog α} {l : List REv} (h : Own p l q) (hp : p.NoPanic) : q ≠ .panic := by
  induction h with
  | refl p => rintro rfl; exact hp
  | act a k r h ih => exact ih (hp r)
  | @unroll σ β s body k l p' h ih =>
    refine ih (noPanic_bind (hp.1 s) ?_)
    rintro (s' | b)
    · exact hp
    · exact hp.2 b

theorem offsetCommit_noPanic (q : CommitRequest) : (offsetCommit q).NoPanic := by
  refine noPanic_map _ (noPanic_forEach _ fun t kt => noPanic_map _ (noPanic_forEach _ fun par => ?_))
  unfold commitPartition
  split
  · intro kp
    dsimp only
    split
    · intro _; trivial
    · trivial
  · trivial

theorem offsetFetch_noPanic (q : OffsetFetchRequest) : (offsetFetch q).NoPanic := by
  have h1 : ∀ name l data, (offsetFetchPartitions name l data).NoPanic := by
    intro name l
    induction l with
    | nil => intro data; trivial
    | cons pi l ih => intro data _; exact ih _
  have h2 : ∀ l data, (offsetFetchTopics l data).NoPanic := by
    intro l
    induction l with
    | nil => intro data; trivial
    | cons rt l ih =>
      intro data kt
      dsimp only
      split
      · exact noPanic_bind (h1 _ _ _) fun _ => ih _
      · exact ih _
  exact noPanic_bind (h2 _ _) fun data names => noPanic_map _ (noPanic_forEach _ fun name => noPanic_map _ (noPanic_forEach _ fun kp _ _ => trivial))

theorem exec_map_panic {α β : Type} {p : Prog α} {f : α → β} {w w' : World} {tr : List Ev} (h : Exec w (p.map f) tr w' .panic) :
    Exec w p tr w' .panic := by
  rcases exec_bind_panic h with h | ⟨t1, t2, w1, v, _, h2, _⟩
  · exact h
  · exact absurd h2 exec_ret_panic

/-! ### C18 -/

theorem answer_panic {sv : Server} {req : Request} {w w' : World} {tr : List Ev} (h : Exec w (answer sv req) tr w' .panic) :
    ∃ q, req = .fetch q ∧ Exec w (KM.fetch q) tr w' .panic := by
  cases req with
  | fetch q => exact ⟨q, rfl, exec_map_panic h⟩
  | listOffsets q => exact absurd (exec_map_panic h) C29_never_panics
  | metadata => exact absurd h exec_ret_panic
  | offsetCommit q => exact absurd rfl (own_noPanic h.own (noPanic_map _ (offsetCommit_noPanic q)))
  | offsetFetch q => exact absurd rfl (own_noPanic h.own (noPanic_map _ (offsetFetch_noPanic q)))
  | findCoordinator => exact absurd h exec_ret_panic
  | joinGroup => exact absurd h exec_ret_panic
  | heartbeat => exact absurd h exec_ret_panic
  | leaveGroup => exact absurd h exec_ret_panic
  | syncGroup g gen m as =>
    have : (answer sv (.syncGroup g gen m as)).NoPanic := by
      simp only [answer]
      split
      · trivial
      · exact noPanic_map _ fun _ => noPanic_forEach _ fun _ _ => trivial
    exact absurd rfl (own_noPanic h.own this)
  | apiVersions => exact absurd rfl (own_noPanic h.own fun _ => trivial)

theorem answer_none {sv : Server} {req : Request} {w w' : World} {tr : List Ev} (h : Exec w (answer sv req) tr w' (.ret none)) :
    ∃ g gen m as, req = .syncGroup g gen m as ∧ as ≠ [] := by
  have hm : ∀ {α : Type} {p : Prog α} {f : α → Bytes}, Exec w (p.map fun x => some (f x)) tr w' (.ret none) → False := by
    intro α p f h
    obtain ⟨v, _, e⟩ := own_map_ret h.own
    cases e
  cases req with
  | fetch q => exact absurd h hm
  | listOffsets q => exact absurd h hm
  | offsetCommit q => exact absurd h hm
  | offsetFetch q => exact absurd h hm
  | metadata => cases (own_ret_inv h.own).1
  | findCoordinator => cases (own_ret_inv h.own).1
  | joinGroup => cases (own_ret_inv h.own).1
  | heartbeat => cases (own_ret_inv h.own).1
  | leaveGroup => cases (own_ret_inv h.own).1
  | syncGroup g gen m as =>
    refine ⟨g, gen, m, as, rfl, ?_⟩
    rintro rfl
    exact hm h
  | apiVersions =>
    obtain ⟨r, l', _, h2⟩ := own_act_ret h.own
    cases (own_ret_inv h2).1

/-- **C18** for requests whose header and whose body are each at most 4096 bytes (the size of the read buffer): the fields the client sent
are decoded exactly, and the request is answered with the response to those fields (`answer`, in terms of the decoded request, with the
wire formats of `Spec/Protocol`). Excepted are a SyncGroup that carries assignments, which is rejected, and a Fetch that crashes
(`C37`). Missing for the full statement: larger headers and bodies, for which it is false (`C18_false_large_body`, `C18_false_large_header`),
and SyncGroup with assignments (`C18_false_assignments`). -/
theorem C18_partial {req : Request} (h : req.WellFormed) {sv : Server} {c : I32} {client : Option Bytes} (hc : ∀ x ∈ client, ShortStr x)
    (hh : (header req.api.1 req.api.2 c client).length ≤ 4096) (hb : req.body.length ≤ 4096) {n : Nat} {w w' : World} {tr : List Ev}
    {q : Prog DRes} (he : Exec w (dispatcher sv ⟨req.message c client⟩ n) tr w' q) (ha : AllSent (own tr)) (hq : Over q)
    (hs : ∀ g gen m as, req = .syncGroup g gen m as → as = []) (hf : ∀ f w w' tr, req = .fetch f → ¬ Exec w (KM.fetch f) tr w' .panic) :
    ∃ t1 t2 w1 payload, tr = t1 ++ t2 ∧ Exec w (answer sv req) t1 w1 (.ret (some payload)) ∧ q = .ret .done ∧
      sent (own tr) = responseBytes c payload := by
  rcases request_run h hc hh hb he ha hq with ⟨_, h1, _⟩ | ⟨t1, t2, w1, rfl, _, ⟨h1, _⟩ | ⟨payload, h1, h2, h3, _⟩⟩
  · obtain ⟨f, h2, h3⟩ := answer_panic h1
    exact absurd h3 (hf f _ _ _ h2)
  · obtain ⟨g, gen, m, as, h2, h3⟩ := answer_none h1
    exact absurd (hs g gen m as h2) h3
  · exact ⟨t1, t2, w1, payload, rfl, h1, h2, h3⟩

/-- **C18** is false as listed: every well-formed request with a body of more than 4096 bytes is rejected. -/
theorem C18_false_large_body {req : Request} (h : req.WellFormed) (sv : Server) (c : I32) (client : Option Bytes) (hc : ∀ x ∈ client, ShortStr x)
    (hh : (header req.api.1 req.api.2 c client).length ≤ 4096) (hb : 4096 < req.body.length) (n : Nat) :
    dispatcher sv ⟨req.message c client⟩ n = .ret .err := by
  rw [Request.message, C15_dispatch sv _ _ c client _ n hc hh, entry_api]
  dsimp only
  rw [handler_short h sv (List.take_append_drop 4096 req.body).symm (by simpa using hb)]
  rfl

/-- The same for a header of more than 4096 bytes. -/
theorem C18_false_large_header (req : Request) (sv : Server) (c : I32) (client : Option Bytes) (hc : ∀ x ∈ client, ShortStr x)
    (hh : 4096 < (header req.api.1 req.api.2 c client).length) (n : Nat) : dispatcher sv ⟨req.message c client⟩ n = .ret .err := by
  refine dispatcher_cut sv req.api.1 req.api.2 c client hc (rest := (header req.api.1 req.api.2 c client).drop 4096) ?_ (by simpa using hh) n
  rw [Request.message, List.take_append_of_le_length (by omega), List.take_append_drop]

/-- A SyncGroup that carries assignments is rejected, too. -/
theorem C18_false_assignments (g : Bytes) (gen : I32) (m : Bytes) (as : List (Bytes × Bytes)) (has : as ≠ [])
    (h : (Request.syncGroup g gen m as).WellFormed) (sv : Server) (c : I32) (client : Option Bytes) (hc : ∀ x ∈ client, ShortStr x)
    (hh : (header 14 0 c client).length ≤ 4096) (hb : (Request.syncGroup g gen m as).body.length ≤ 4096) (n : Nat) :
    dispatcher sv ⟨(Request.syncGroup g gen m as).message c client⟩ n = .ret .err := by
  rw [dispatcher_message h sv c client hc hh hb]
  simp only [answer]
  rw [if_pos (by cases as <;> simp_all)]
  rfl

/-- C18: a heartbeat request meets the hypotheses. -/
example : ∃ tr w', (Request.heartbeat (lit ['g']) 3 (lit ['1'])).WellFormed ∧
    Exec (World.init 0) (dispatcher ⟨9092, []⟩ ⟨(Request.heartbeat (lit ['g']) 3 (lit ['1'])).message 7 (some (lit ['m', 'e']))⟩ 22) tr w' (.ret .done) ∧
    AllSent (own tr) ∧ sent (own tr) = [0, 0, 0, 6, 0, 0, 0, 7, 0, 0] :=
  ⟨_, _, ⟨by unfold ShortStr; decide, by unfold ShortStr; decide⟩, Prog.run_ret (sch := go 20) rfl, allSent_of (by decide +kernel), by decide +kernel⟩

/-- C18_false: a FindCoordinator request with a key of 5000 bytes is well-formed and too large. -/
example : (Request.findCoordinator (List.replicate 5000 97)).WellFormed ∧ 4096 < (Request.findCoordinator (List.replicate 5000 97)).body.length ∧
    (header 10 0 7 none).length ≤ 4096 := by
  refine ⟨?_, ?_, ?_⟩
  · show ShortStr _
    unfold ShortStr; rw [List.length_replicate]; decide
  · simp only [Request.body, str, List.length_append, List.length_replicate]; omega
  · decide
example : 4096 < (header 12 0 7 (some (List.replicate 5000 97))).length := by
  simp only [header, nullableStr, str, List.length_append, List.length_replicate]; omega

/-! ### C17 -/

theorem finish_err {n : Nat} {extra : Bytes} (h : extra ≠ []) (hn : 0 < n) : (Reader.peek ⟨extra⟩ n).1.length ≠ 0 := by
  have : 0 < extra.length := List.length_pos_of_ne_nil h
  unfold Reader.peek
  split
  · simp only [List.length_take, defaultBufSize]; omega
  · split <;> simp only [List.length_take] <;> omega

/-- **C17**, no response: whatever bytes are received as a message, if the dispatcher ends with an error or a panic (and no write failed), it
has written nothing. -/
theorem C17_no_response {sv : Server} {m : Bytes} {n : Nat} {w w' : World} {tr : List Ev} {q : Prog DRes}
    (h : Exec w (dispatcher sv ⟨m⟩ n) tr w' q) (hq : q = .ret .err ∨ q = .panic) (ha : AllSent (own tr)) : sent (own tr) = [] := by
  rcases dispatcher_own h.own with ⟨h1, _⟩ | ⟨l1, l2, c, payload, hl, h1, hc, h2⟩
  · have := sent_silent (x := []) h1
    rw [List.append_nil] at this
    exact this
  · rw [hl] at ha
    rcases send_own h2 (allSent_right ha) with ⟨⟨h3, h4, h5⟩, _⟩ | ⟨h3, _⟩
    · rcases hq with rfl | rfl
      · exact absurd rfl h4
      · exact absurd rfl h5
    · rcases hq with rfl | rfl <;> cases h3

theorem header_large (sv : Server) (k v : I16) (c : I32) (client : Option Bytes) (hc : ∀ x ∈ client, ShortStr x)
    (hh : 4096 < (header k v c client).length) (body : Bytes) (n : Nat) : dispatcher sv ⟨header k v c client ++ body⟩ n = .ret .err := by
  refine dispatcher_cut sv k v c client hc (rest := (header k v c client).drop 4096) ?_ (by simpa using hh) n
  rw [List.take_append_of_le_length (by omega), List.take_append_drop]

/-- **C17**, truncated: every proper prefix of the message of a well-formed request, of whatever size, is rejected without any action. -/
theorem C17_truncated {req : Request} (h : req.WellFormed) (sv : Server) (c : I32) (client : Option Bytes) (hc : ∀ x ∈ client, ShortStr x)
    {m rest : Bytes} (hm : req.message c client = m ++ rest) (hr : rest ≠ []) (n : Nat) : dispatcher sv ⟨m⟩ n = .ret .err := by
  rw [Request.message] at hm
  rcases List.append_eq_append_iff.1 hm with ⟨m', rfl, hb⟩ | ⟨r', hh, rfl⟩
  · by_cases hl : (header req.api.1 req.api.2 c client).length ≤ 4096
    · rw [C15_dispatch sv _ _ c client _ n hc hl, entry_api]
      dsimp only
      rw [handler_short h sv (m := m') (rest := m'.drop 4096 ++ rest) (by rw [← List.append_assoc, List.take_append_drop]; exact hb) (by simp [hr])]
      rfl
    · exact header_large sv _ _ c client hc (by omega) m' n
  · cases r' with
    | nil =>
      rw [List.append_nil] at hh
      by_cases hl : (header req.api.1 req.api.2 c client).length ≤ 4096
      · have := C15_dispatch sv req.api.1 req.api.2 c client [] n hc hl
        rw [List.append_nil, hh, entry_api] at this
        rw [this]
        dsimp only
        rw [handler_short h sv (m := []) (rest := req.body) (by simp) (by simpa using hr)]
        rfl
      · have := header_large sv req.api.1 req.api.2 c client hc (by omega) [] n
        rwa [List.append_nil, hh] at this
    | cons x r' =>
      refine dispatcher_cut sv req.api.1 req.api.2 c client hc (rest := m.drop 4096 ++ x :: r') ?_ (by simp) n
      rw [← List.append_assoc, List.take_append_drop]; exact hh

/-- **C17**, unsupported: a request for a pair that is not served is rejected without any action, whatever follows the header. -/
theorem C17_unsupported (sv : Server) (k v : I16) (hs : serves k.toInt v.toInt = none) (c : I32) (client : Option Bytes) (hc : ∀ x ∈ client, ShortStr x)
    (body : Bytes) (n : Nat) : dispatcher sv ⟨header k v c client ++ body⟩ n = .ret .err := by
  by_cases hl : (header k v c client).length ≤ 4096
  · rw [C15_dispatch sv _ _ c client _ n hc hl, hs]
  · exact header_large sv _ _ c client hc (by omega) body n

/-- **C17**, surplus: a well-formed request, of whatever size, followed by more bytes is never answered. -/
theorem C17_surplus {req : Request} (h : req.WellFormed) {sv : Server} {c : I32} {client : Option Bytes} (hc : ∀ x ∈ client, ShortStr x)
    {extra : Bytes} (hx : extra ≠ []) {w w' : World} {tr : List Ev} {q : Prog DRes}
    (he : Exec w (dispatcher sv ⟨req.message c client ++ extra⟩ (req.message c client ++ extra).length) tr w' q) :
    q ≠ .ret .done ∧ sent (own tr) = [] := by
  have rejected : ∀ {n : Nat}, dispatcher sv ⟨req.message c client ++ extra⟩ n = .ret .err →
      Exec w (dispatcher sv ⟨req.message c client ++ extra⟩ n) tr w' q → q ≠ .ret .done ∧ sent (own tr) = [] := by
    intro n e he
    rw [e] at he
    obtain ⟨rfl, e⟩ := own_ret_inv he.own
    rw [e]
    exact ⟨by simp, rfl⟩
  by_cases hl : (header req.api.1 req.api.2 c client).length ≤ 4096
  · by_cases hb : req.body.length ≤ 4096
    · rw [dispatcher_request h sv c client hc hl hb] at he
      have hp := finish_err (n := (req.message c client ++ extra).length) hx (by
        rw [List.length_append]
        have := List.length_pos_of_ne_nil hx
        omega)
      have hk : Exec w ((answer sv req).bind fun _ => .ret .err) tr w' q := by
        have : ((answer sv req).bind fun _ => (.ret .err : Prog DRes)) = (answer sv req).bind fun
          | none => .ret .err
          | some payload => if (Reader.peek ⟨extra⟩ (req.message c client ++ extra).length).1.length ≠ 0 then .ret .err else send c payload := by
          congr
          funext x
          cases x with
          | none => rfl
          | some payload => exact (if_pos hp).symm
        rw [this]; exact he
      have silent : ∀ {t : List Ev} {w1 : World} {p : Prog (Option Bytes)}, Exec w (answer sv req) t w1 p → sent (own t) = [] := by
        intro t w1 p hx
        have := sent_silent (x := []) (hx.own.only (answer_socket sv req)).2
        rwa [List.append_nil] at this
      rcases exec_bind_inv hk with ⟨p', h1, rfl⟩ | ⟨t1, t2, w1, a, h1, h2, rfl⟩
      · refine ⟨?_, silent h1⟩
        cases p' <;> simp [Prog.bind]
      · obtain ⟨rfl, e⟩ := own_ret_inv h2.own
        refine ⟨by simp, ?_⟩
        rw [own_append, e, List.append_nil, silent h1]
    · refine rejected ?_ he
      rw [Request.message, List.append_assoc, C15_dispatch sv _ _ c client _ _ hc hl, entry_api]
      dsimp only
      rw [handler_short h sv (m := req.body ++ extra) (rest := req.body.drop 4096) (by
        rw [List.take_append_of_le_length (by omega), List.take_append_drop]) (by simp; omega)]
      rfl
  · refine rejected ?_ he
    rw [Request.message, List.append_assoc]
    exact header_large sv _ _ c client hc (by omega) _ _

/-- The pair of OffsetCommit, as it is at the start of a message. -/
def commitPair : Bytes := [0, 8, 0, 2]

theorem dispatcher_noEffect (sv : Server) {m : Bytes} (hm : m.take 4 ≠ commitPair) (n : Nat) : (dispatcher sv ⟨m⟩ n).Only NoEffect := by
  by_cases hl : m.length < 8
  · rw [dispatcher_short sv n hl]; trivial
  · obtain ⟨k, v, c, rest, rfl⟩ := header_split (m := m) (by omega)
    rw [dispatcher_header]
    unfold dispatchBody
    rw [apiTable_get]
    split
    · trivial
    · trivial
    · split
      · trivial
      · next api ha =>
        have hne : api ≠ .offsetCommit := by
          rintro rfl
          have hs : (supported.find? fun e => e.1 == k.toInt && e.2.1 == v.toInt).map (fun e => e.2.2) = some .offsetCommit := ha
          obtain ⟨e, he, h2⟩ := Option.map_eq_some_iff.1 hs
          have h3 := List.find?_some he
          have h4 := List.mem_of_find?_eq_some he
          have h5 : ∀ e ∈ supported, e.2.2 = .offsetCommit → e.1 = 8 ∧ e.2.1 = 2 := by decide
          obtain ⟨e1, e2⟩ := h5 e h4 h2
          simp only [e1, e2, Bool.and_eq_true, beq_iff_eq] at h3
          have hk : k = 8 := BitVec.eq_of_toInt_eq (by rw [← h3.1]; rfl)
          have hv : v = 2 := BitVec.eq_of_toInt_eq (by rw [← h3.2]; rfl)
          subst hk; subst hv
          exact hm rfl
        have hfin : ∀ h, (finish n c h).Only NoEffect := fun h => (finish_only n c h).mono fun _ => ReadOnly.noEffect
        by_cases h1 : api = .offsetFetch
        · subst h1
          exact (Prog.Only.withRequest _ fun _ => (offsetFetch_only _).map _).bind hfin
        · exact ((handler_readOnly sv api h1 hne _).mono fun _ => ReadOnly.noEffect).bind hfin

theorem effects_own_none {tr : List Ev} (h : ∀ e ∈ tr, e.mine = true → NoEffect e.act) : effects tr = effects (others tr) := by
  induction tr with
  | nil => rfl
  | cons e tr ih =>
    have ih := ih fun e he => h e (List.mem_cons_of_mem _ he)
    obtain ⟨mine, a, r⟩ := e
    cases mine with
    | false => rw [others_env, effects_cons, effects_cons, ih]
    | true =>
      rw [others_mine, effects_cons, ih]
      have : a.effect = none := by
        rcases h _ (List.mem_cons_self ..) rfl with h1 | ⟨t, p, g, h1⟩
        · cases a <;> first | rfl | cases h1
        · dsimp only at h1; subst h1; rfl
      rw [this]; rfl

theorem steps_hasPartition_inv {w w' : World} {tr : List Ev} (h : Steps w tr w') (hn : ∀ e ∈ tr, e.mine = true → NoEffect e.act) {t : Bytes} {p : I32}
    (hp : w'.hasPartition t p) : w.hasPartition t p ∨ (⟨false, .createPartition t p, ()⟩ : Ev) ∈ tr := by
  induction h with
  | nil => exact .inl hp
  | cons e hst _ ih =>
    rcases ih (fun e he => hn e (List.mem_cons_of_mem _ he)) hp with h1 | h1
    · unfold World.hasPartition at h1 ⊢
      rcases step_part hst t p with e1 | ⟨_, _, e1⟩ | ⟨kp, e1, _⟩
      · rw [← e1]; exact .inl h1
      · refine .inr ?_
        have := hn e (List.mem_cons_self ..)
        obtain ⟨mine, a, r⟩ := e
        dsimp only at e1; subst e1
        cases mine with
        | false => exact List.mem_cons_self ..
        | true => rcases this rfl with h2 | ⟨_, _, _, h2⟩ <;> cases h2
      · rw [e1]; exact .inl rfl
    · exact .inr (List.mem_cons_of_mem _ h1)

theorem steps_hasTopic_inv {w w' : World} {tr : List Ev} (h : Steps w tr w') (hn : ∀ e ∈ tr, e.mine = true → NoEffect e.act) {t : Bytes}
    (hp : w'.hasTopic t) : w.hasTopic t ∨ (⟨false, .createTopic t, ()⟩ : Ev) ∈ tr := by
  induction h with
  | nil => exact .inl hp
  | cons e hst _ ih =>
    rcases ih (fun e he => hn e (List.mem_cons_of_mem _ he)) hp with h1 | h1
    · replace hn := hn e (List.mem_cons_self ..)
      obtain ⟨mine, a, r⟩ := e
      dsimp only at hst hn
      by_cases hm : a.mutates = false
      · unfold World.hasTopic at h1 ⊢
        rw [step_same hst hm] at h1; exact .inl h1
      · unfold World.hasTopic at *
        cases a <;> first | exact absurd rfl hm | skip
        all_goals simp only [Act.step] at hst
        case createTopic t' =>
          by_cases ht : t' = t
          · subst ht
            cases mine with
            | false => exact .inr (List.mem_cons_self ..)
            | true => rcases hn rfl with h2 | ⟨_, _, _, h2⟩ <;> cases h2
          · subst hst
            simp only [World.withDs, Store.get_createTopic, if_neg ht] at h1
            exact .inl h1
        case createPartition => obtain ⟨_, rfl⟩ := hst; simp only [World.withDs] at h1; rw [Store.get_isSome_createPartition] at h1; exact .inl h1
        case post => obtain ⟨_, rfl⟩ := hst; simp only [World.withDs] at h1; rw [Store.get_isSome_updPart] at h1; exact .inl h1
        case commit => obtain ⟨_, rfl⟩ := hst; simp only [World.withDs] at h1; rw [Store.get_isSome_updPart] at h1; exact .inl h1
        case groupCommitted => obtain ⟨_, _, _, rfl⟩ := hst; simp only [World.withDs] at h1; rw [Store.get_isSome_updPart] at h1; exact .inl h1
        case setOffset => obtain ⟨_, rfl⟩ := hst; simp only [World.withDs] at h1; rw [Store.get_isSome_updPart] at h1; exact .inl h1
    · exact .inr (List.mem_cons_of_mem _ h1)

/-- **C17**, no effect, for messages that do not start with the pair of OffsetCommit (rejected or not, at any point of their processing):
every change of records, committed offsets, topics and partitions is due to others. For every byte string `m`. Missing for the full
statement: a rejected OffsetCommit, for which it is false (`C17_false_commit_surplus`), except when it is truncated (`C17_truncated`). -/
theorem C17_no_effect_partial {sv : Server} {m : Bytes} (hm : m.take 4 ≠ commitPair) {n : Nat} {w w' : World} {tr : List Ev} {q : Prog DRes}
    (h : Exec w (dispatcher sv ⟨m⟩ n) tr w' q) :
    (∀ t p, w'.log t p = w.log t p ++ posts (effects (others tr)) t p) ∧
    (∀ t p g, (w'.committed t p g).toInt = committedFrom (w.committed t p g).toInt (effects (others tr)) t p g) ∧
    (∀ t, w'.hasTopic t → w.hasTopic t ∨ (⟨false, .createTopic t, ()⟩ : Ev) ∈ tr) ∧
    (∀ t p, w'.hasPartition t p → w.hasPartition t p ∨ (⟨false, .createPartition t p, ()⟩ : Ev) ∈ tr) := by
  have ho := (h.only (dispatcher_noEffect sv hm n)).2
  have he := effects_own_none ho
  refine ⟨fun t p => ?_, fun t p g => ?_, fun t ht => steps_hasTopic_inv h.steps ho ht, fun t p hp => steps_hasPartition_inv h.steps ho hp⟩
  · rw [← he]; exact h.steps.log t p
  · rw [← he]; exact h.steps.committed t p g

/-- An OffsetCommit of group "g" for topic "t", partition 0: offset 5. -/
def commitRequest : Request := .offsetCommit ⟨lit ['g'], 0, lit ['1'], -1, [⟨lit ['t'], [⟨0, 5, none⟩]⟩]⟩

/-- A store with topic "t", partition 0 and nothing else. -/
def commitWorld : World := (World.init 0).withDs (Store.createPartition (Store.createTopic [] (lit ['t'])) (lit ['t']) 0)

/-- **C17** is false as listed: an OffsetCommit followed by a surplus byte is rejected, but its offset is committed. -/
theorem C17_false_commit_surplus : ∃ tr w', Exec commitWorld
      (dispatcher ⟨9092, []⟩ ⟨commitRequest.message 7 none ++ [0]⟩ (commitRequest.message 7 none ++ [0]).length) tr w' (.ret .err) ∧
    others tr = [] ∧ commitWorld.committed (lit ['t']) 0 (lit ['g']) = 0 ∧ w'.committed (lit ['t']) 0 (lit ['g']) = 5 :=
  ⟨_, _, Prog.run_ret (sch := go 20) rfl, rfl, by decide +kernel, by decide +kernel⟩

/-- C17: the hypotheses of the truncation and surplus theorems are met by the same request; an unsupported pair is (1, 3). -/
example : commitRequest.WellFormed ∧ serves 1 3 = none ∧ (header 1 3 7 none).take 4 ≠ commitPair := by
  refine ⟨?_, by decide, by decide⟩
  simp [commitRequest, Request.WellFormed, ShortStr, ShortList, lit]

end KM.Props
