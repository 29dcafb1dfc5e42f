import Verif.Spec.Api
import Verif.Props.Conn
import Verif.Writes
/-
Properties C15, C16: dispatch and ApiVersions.
-/
namespace KM.Props
open KM Spec

/-! ### Decimal digits -/

theorem digitChar_spec : ∀ d < 10, (digitChar d).toNat - 48 = d ∧ digitChar d ≠ '.' ∧ digitChar d ≠ '-' := by decide

/-- The value of a string of digits. -/
def digitsVal (cs : List Char) : Nat := cs.foldl (fun a c => a * 10 + (c.toNat - 48)) 0

theorem digitsAux_spec (fuel n : Nat) (h : n ≤ fuel) : digitsVal (digitsAux fuel n) = n ∧ (∀ c ∈ digitsAux fuel n, c ≠ '.' ∧ c ≠ '-') := by
  induction fuel generalizing n with
  | zero =>
    have : n = 0 := by omega
    subst this
    exact ⟨by decide, by decide⟩
  | succ fuel ih =>
    unfold digitsAux
    by_cases h10 : n < 10
    · rw [if_pos h10]
      obtain ⟨h1, h2⟩ := digitChar_spec n h10
      exact ⟨by simp [digitsVal, h1], by simpa using h2⟩
    · rw [if_neg h10]
      obtain ⟨h1, h2⟩ := ih (n / 10) (by omega)
      obtain ⟨h3, h4⟩ := digitChar_spec (n % 10) (by omega)
      constructor
      · unfold digitsVal at h1 ⊢
        rw [List.foldl_append, h1]
        simp only [List.foldl_cons, List.foldl_nil, h3]
        omega
      · intro c hc
        rcases List.mem_append.1 hc with hc | hc
        · exact h2 c hc
        · simp only [List.mem_singleton] at hc
          subst hc; exact h4

theorem atoi_of_ne {cs : List Char} (h : ∀ c ∈ cs, c ≠ '-') : atoi cs = digitsVal cs := by
  unfold atoi
  split
  · exact absurd rfl (h '-' (List.mem_cons_self ..))
  · rfl

/-- `strconv.Atoi` undoes `%d`. -/
theorem atoi_fmtInt (n : Int) : atoi (fmtInt n) = n := by
  obtain ⟨h1, h2⟩ := digitsAux_spec n.natAbs n.natAbs (Nat.le_refl _)
  unfold fmtInt
  split
  · show -((digitsVal (digits n.natAbs) : Nat) : Int) = n
    unfold digits
    rw [h1]; omega
  · unfold digits
    rw [atoi_of_ne (fun c hc => (h2 c hc).2)]
    rw [h1]; omega

theorem fmtInt_no_dot (n : Int) : ∀ c ∈ fmtInt n, c ≠ '.' := by
  obtain ⟨_, h2⟩ := digitsAux_spec n.natAbs n.natAbs (Nat.le_refl _)
  unfold fmtInt
  split
  · intro c hc
    rcases List.mem_cons.1 hc with rfl | hc
    · decide
    · exact (h2 c hc).1
  · exact fun c hc => (h2 c hc).1

theorem makeApiKey_takeWhile (k v : Int) : (makeApiKey k v).takeWhile (· ≠ '.') = fmtInt k := by
  unfold makeApiKey
  rw [List.takeWhile_append_of_pos (by simpa using fmtInt_no_dot k)]
  simp

theorem makeApiKey_dropWhile (k v : Int) : ((makeApiKey k v).dropWhile (· ≠ '.')).drop 1 = fmtInt v := by
  unfold makeApiKey
  rw [List.dropWhile_append_of_pos (by simpa using fmtInt_no_dot k)]
  simp

theorem makeApiKey_key (k v : Int) : atoi ((makeApiKey k v).takeWhile (· ≠ '.')) = k := by rw [makeApiKey_takeWhile, atoi_fmtInt]
theorem makeApiKey_version (k v : Int) : atoi (((makeApiKey k v).dropWhile (· ≠ '.')).drop 1) = v := by rw [makeApiKey_dropWhile, atoi_fmtInt]

/-! ### C15 -/

/-- **C15**, no shared dispatch keys: different pairs have different keys (for all integers, not only 16-bit ones). -/
theorem C15_keys_distinct {k v k' v' : Int} (h : makeApiKey k v = makeApiKey k' v') : k = k' ∧ v = v' :=
  ⟨by rw [← makeApiKey_key k v, h, makeApiKey_key], by rw [← makeApiKey_version k v, h, makeApiKey_version]⟩

theorem get_map_makeApiKey (l : List (Int × Int × Api)) (k v : Int) :
    GoMap.get (l.map fun e => (makeApiKey e.1 e.2.1, e.2.2)) (makeApiKey k v) = (l.find? fun e => e.1 == k && e.2.1 == v).map fun e => e.2.2 := by
  induction l with
  | nil => rfl
  | cons e l ih =>
    obtain ⟨k', v', a⟩ := e
    simp only [List.map_cons, GoMap.get, List.find?_cons]
    by_cases h : makeApiKey k' v' = makeApiKey k v
    · obtain ⟨rfl, rfl⟩ := C15_keys_distinct h
      simp
    · rw [if_neg h, ih]
      have : (k' == k && v' == v) = false := by
        rw [Bool.eq_false_iff]
        intro hk
        simp only [Bool.and_eq_true, beq_iff_eq] at hk
        exact h (by rw [hk.1, hk.2])
      rw [this]

/-- The dispatch table holds exactly the supported pairs. -/
theorem apiTable_get (k v : Int) : GoMap.get apiTable (makeApiKey k v) = serves k v := by
  have h : apiTable.Perm (supported.map fun e => (makeApiKey e.1 e.2.1, e.2.2)) := by decide +kernel
  rw [GoMap.get_perm h (by decide +kernel), get_map_makeApiKey]
  rfl

/-- **C15**: what the server does with a request is determined by the pair in its header: a supported pair reaches its handler (with the
bytes after the header as its input), every other pair is rejected and no handler runs. For all 2^16 × 2^16 pairs, all correlation ids,
client ids and bodies. `hc`, `hh`: the header is well-formed (client id shorter than 2^15 bytes) and fits the read buffer. -/
theorem C15_dispatch (sv : Server) (k v : I16) (c : I32) (client : Option Bytes) (body : Bytes) (n : Nat) (hc : ∀ x ∈ client, ShortStr x)
    (hh : (header k v c client).length ≤ 4096) :
    dispatcher sv ⟨header k v c client ++ body⟩ n =
      match serves k.toInt v.toInt with
      | none => .ret .err
      | some api => (api.handler sv ⟨body⟩).bind (finish n c) := by
  rw [dispatcher_ok sv k v c client hc hh, apiTable_get]; rfl

/-- The pairs that reach a handler, spelled out. -/
theorem C15_eleven (k v : Int) : (serves k v).isSome ↔
    (k, v) ∈ [(1, 2), (2, 1), (3, 1), (8, 2), (9, 1), (10, 0), (11, 1), (12, 0), (13, 0), (14, 0), (18, 0)] := by
  have : (serves k v).isSome ↔ (k, v) ∈ supported.map fun e => (e.1, e.2.1) := by
    simp only [serves, Option.isSome_map, List.find?_isSome, Bool.and_eq_true, beq_iff_eq, List.mem_map, Prod.mk.injEq]
  exact this

/-- (-1, 5) and (1, 12) are rejected; (1, 2) reaches the Fetch handler. The keys of (1, 12) and (11, 2) would collide without separator. -/
example : serves (-1) 5 = none ∧ serves 1 12 = none ∧ serves 1 2 = some .fetch ∧ makeApiKey 1 12 ≠ makeApiKey 11 2 := by decide +kernel
example : (∀ x ∈ some (lit ['m', 'e']), ShortStr x) ∧ (header 1 2 7 (some (lit ['m', 'e']))).length ≤ 4096 := by
  constructor
  · intro x hx; cases hx; unfold ShortStr; decide
  · decide

/-! ### From the bytes of a request to the bytes of its response -/

theorem entry_api (req : Request) : serves req.api.1.toInt req.api.2.toInt = some req.entry := by cases req <;> rfl

/-- A well-formed request whose header and body each fit the read buffer is decoded to the fields that were sent; it is rejected if bytes
follow it, and otherwise answered. -/
theorem dispatcher_request {req : Request} (h : req.WellFormed) (sv : Server) (c : I32) (client : Option Bytes) (hc : ∀ x ∈ client, ShortStr x)
    (hh : (header req.api.1 req.api.2 c client).length ≤ 4096) (hb : req.body.length ≤ 4096) (extra : Bytes) (n : Nat) :
    dispatcher sv ⟨req.message c client ++ extra⟩ n = (answer sv req).bind fun
      | none => .ret .err
      | some payload => if (Reader.peek ⟨extra⟩ n).1.length ≠ 0 then .ret .err else send c payload := by
  rw [Request.message, List.append_assoc, C15_dispatch sv _ _ c client _ n hc hh, entry_api]
  dsimp only
  rw [handler_ok h sv hb]
  exact serve_answer sv req c n extra

theorem dispatcher_message {req : Request} (h : req.WellFormed) (sv : Server) (c : I32) (client : Option Bytes) (hc : ∀ x ∈ client, ShortStr x)
    (hh : (header req.api.1 req.api.2 c client).length ≤ 4096) (hb : req.body.length ≤ 4096) (n : Nat) :
    dispatcher sv ⟨req.message c client⟩ n = (answer sv req).bind fun
      | none => .ret .err
      | some payload => send c payload := by
  have := dispatcher_request h sv c client hc hh hb [] n
  rw [List.append_nil] at this
  rw [this]
  have e : (Reader.peek ⟨[]⟩ n).1.length = 0 := by
    unfold Reader.peek
    split
    · rfl
    · split
      · rfl
      · show (List.take n []).length = 0
        simp
  simp only [e, ne_eq, not_true_eq_false, if_false]

/-- The bytes of a response: size, correlation id, body. -/
def responseBytes (c : I32) (payload : Bytes) : Bytes := Spec.int32 (BitVec.ofNat 32 (4 + payload.length)) ++ Spec.int32 c ++ payload

/-- The run is over: the dispatcher has returned or panicked. -/
def Over : Prog DRes → Prop
  | .ret _ => True
  | .panic => True
  | _ => False

/-- A finished run on a well-formed request whose header and body each fit the read buffer, with all writes succeeding. -/
theorem request_run {req : Request} (h : req.WellFormed) {sv : Server} {c : I32} {client : Option Bytes} (hc : ∀ x ∈ client, ShortStr x)
    (hh : (header req.api.1 req.api.2 c client).length ≤ 4096) (hb : req.body.length ≤ 4096) {n : Nat} {w w' : World} {tr : List Ev}
    {q : Prog DRes} (he : Exec w (dispatcher sv ⟨req.message c client⟩ n) tr w' q) (ha : AllSent (own tr)) (hq : Over q) :
    (q = .panic ∧ Exec w (answer sv req) tr w' .panic ∧ sent (own tr) = []) ∨
    ∃ t1 t2 w1, tr = t1 ++ t2 ∧ Steps w1 t2 w' ∧ ((Exec w (answer sv req) t1 w1 (.ret none) ∧ q = .ret .err ∧ sent (own tr) = []) ∨
      ∃ payload, Exec w (answer sv req) t1 w1 (.ret (some payload)) ∧ q = .ret .done ∧ sent (own tr) = responseBytes c payload ∧
        own t2 = [⟨.write (responseSize payload), true⟩, ⟨.write (encodeInt32 c), true⟩, ⟨.write payload, true⟩]) := by
  have silent : ∀ {t : List Ev} {w1 : World} {p : Prog (Option Bytes)}, Exec w (answer sv req) t w1 p → ∀ e ∈ own t, e.act.socket = false :=
    fun hx => (hx.own.only (answer_socket sv req)).2
  have fin : ∀ {t1 t2 : List Ev} {w1 : World} {a : Option Bytes}, AllSent (own (t1 ++ t2)) → Exec w (answer sv req) t1 w1 (.ret a) →
      Exec w1 (match a with
        | none => .ret .err
        | some payload => send c payload) t2 w' q →
      ∃ t1' t2' w1, t1 ++ t2 = t1' ++ t2' ∧ Steps w1 t2' w' ∧ ((Exec w (answer sv req) t1' w1 (.ret none) ∧ q = .ret .err ∧ sent (own (t1 ++ t2)) = []) ∨
        ∃ payload, Exec w (answer sv req) t1' w1 (.ret (some payload)) ∧ q = .ret .done ∧ sent (own (t1 ++ t2)) = responseBytes c payload ∧
        own t2' = [⟨.write (responseSize payload), true⟩, ⟨.write (encodeInt32 c), true⟩, ⟨.write payload, true⟩]) := by
    intro t1 t2 w1 a ha h1 h2
    refine ⟨t1, t2, w1, rfl, h2.steps, ?_⟩
    have hs := silent h1
    rw [own_append] at ha ⊢
    rw [sent_silent hs]
    cases a with
    | none =>
      obtain ⟨rfl, e⟩ := own_ret_inv h2.own
      rw [e]
      exact .inl ⟨h1, rfl, rfl⟩
    | some payload =>
      rcases send_own h2.own (allSent_right ha) with ⟨⟨h3, h4, h5⟩, k, hk, _⟩ | ⟨rfl, e⟩
      · cases q with
        | ret r => cases r <;> first | exact absurd rfl h3 | exact absurd rfl h4
        | panic => exact absurd rfl h5
        | act => cases hq
        | loop => cases hq
      · rw [e]
        refine .inr ⟨payload, h1, rfl, ?_, rfl⟩
        simp only [sent, responseBytes, responseSize, int32_eq, List.append_nil, List.append_assoc]
  rw [dispatcher_message h sv c client hc hh hb] at he
  rcases exec_bind_inv he with ⟨p', h1, rfl⟩ | ⟨t1, t2, w1, a, h1, h2, rfl⟩
  · cases p' with
    | ret a =>
      have := fin (t1 := tr) (t2 := []) (a := a) (by simpa using ha) h1 (by rw [Prog.bind_ret]; exact .refl _ _)
      rw [List.append_nil] at this
      exact .inr this
    | panic =>
      refine .inl ⟨rfl, h1, ?_⟩
      have := sent_silent (x := []) (silent h1)
      rw [List.append_nil] at this
      exact this
    | act => cases hq
    | loop => cases hq
  · exact .inr (fin ha h1 h2)

/-! ### C16 -/

/-- The entry of the version map made from a key of the dispatch table. -/
def versionEntry (keyVer : List Char) : Int × VersionRange :=
  (atoi (keyVer.takeWhile (· ≠ '.')),
   { min := BitVec.ofInt 16 (atoi ((keyVer.dropWhile (· ≠ '.')).drop 1)), max := BitVec.ofInt 16 (atoi ((keyVer.dropWhile (· ≠ '.')).drop 1)) })

theorem foldl_initVersion (order : List (List Char)) (acc : List (Int × VersionRange)) (h : (GoMap.keys (acc ++ order.map versionEntry)).Nodup) :
    order.foldl initVersion acc = acc ++ order.map versionEntry := by
  induction order generalizing acc with
  | nil => simp
  | cons s order ih =>
    have h1 : GoMap.get acc (versionEntry s).1 = none := by
      rw [GoMap.get_none_iff]
      intro hm
      simp only [GoMap.keys, List.map_append, List.map_cons, List.nodup_append] at h
      exact h.2.2 _ hm _ (List.mem_cons_self ..) rfl
    have h2 : initVersion acc s = acc ++ [versionEntry s] := by
      unfold initVersion
      simp only [versionEntry] at h1 ⊢
      rw [h1]
      exact GoMap.set_new _ h1
    rw [List.foldl_cons, h2, ih]
    · simp
    · simpa using h

theorem initVersions_perm {order : List (List Char)} (h : order.Perm (GoMap.keys apiTable)) :
    (initVersions order).Perm (supported.map fun e => (e.1, { min := BitVec.ofInt 16 e.2.1, max := BitVec.ofInt 16 e.2.1 })) := by
  have hp : (order.map versionEntry).Perm (supported.map fun e => (e.1, { min := BitVec.ofInt 16 e.2.1, max := BitVec.ofInt 16 e.2.1 })) :=
    (h.map versionEntry).trans (by decide +kernel)
  have : initVersions order = order.map versionEntry := by
    have := foldl_initVersion order [] (by
      rw [List.nil_append]
      exact (hp.map Prod.fst).nodup_iff.2 (by decide))
    rw [List.nil_append] at this
    exact this
  rw [this]; exact hp

theorem apiVersionsList_eq {order : List (List Char)} (h : order.Perm (GoMap.keys apiTable)) {order' : List Int}
    (h' : order'.Perm (GoMap.keys (initVersions order))) :
    apiVersionsList (initVersions order) order' =
      supported.map fun e => { apiKey := BitVec.ofInt 16 e.1, minVersion := BitVec.ofInt 16 e.2.1, maxVersion := BitVec.ofInt 16 e.2.1 } := by
  have hp := initVersions_perm h
  have hn : (GoMap.keys (initVersions order)).Nodup := (hp.map Prod.fst).nodup_iff.2 (by decide)
  have hk : order'.Perm [1, 2, 3, 8, 9, 10, 11, 12, 13, 14, 18] := h'.trans (hp.map Prod.fst)
  unfold apiVersionsList
  simp only [fun k => GoMap.get_perm hp hn k]
  rw [List.filter_eq_self.2 ?_, sorted_perm_eq ((List.mergeSort_perm _ _).trans hk) (sortInts_pairwise _) (by decide)]
  · decide +kernel
  · intro k hm
    have hd : ∀ k ∈ [(1 : Int), 2, 3, 8, 9, 10, 11, 12, 13, 14, 18],
        (GoMap.get (supported.map fun e => (e.1, ({ min := BitVec.ofInt 16 e.2.1, max := BitVec.ofInt 16 e.2.1 } : VersionRange))) k).any
          (fun vr => decide (vr.min.toInt > -2)) = true := by decide +kernel
    have := hd k (hk.mem_iff.1 hm)
    rw [Option.any_eq_true] at this
    obtain ⟨vr, h1, h2⟩ := this
    simp only [h1, h2]

/-- The entries of an ApiVersions response: api key, lowest and highest version. -/
abbrev VersionsEntry := I16 × I16 × I16

/-- **C16**: an ApiVersions request with header fields `c`, `client` is answered with a response in which every api key occurs once, in
ascending order, and a version of a key is within its advertised range exactly if the pair is one that reaches a handler. `table` is the
order in which the dispatch table was iterated at start-up; the order in which the version map is iterated during the request is part
of the run. -/
theorem C16 {table : List (List Char)} (ht : table.Perm (GoMap.keys apiTable)) (port : Nat) (c : I32) (client : Option Bytes)
    (hc : ∀ x ∈ client, ShortStr x) (hh : (header 18 0 c client).length ≤ 4096) {w w' : World} {tr : List Ev} {n : Nat} {q : Prog DRes}
    (h : Exec w (dispatcher ⟨port, initVersions table⟩ ⟨Request.apiVersions.message c client⟩ n) tr w' q) (ha : AllSent (own tr))
    (hq : Over q) :
    q = .ret .done ∧ ∃ entries : List VersionsEntry,
      sent (own tr) = responseBytes c (apiVersionsResponse 0 entries) ∧
      entries.Pairwise (fun a b => a.1.toInt < b.1.toInt) ∧
      ∀ k v : I16, (∃ e ∈ entries, e.1 = k ∧ e.2.1.toInt ≤ v.toInt ∧ v.toInt ≤ e.2.2.toInt) ↔ (serves k.toInt v.toInt).isSome := by
  have hp : ∀ {t : List Ev} {w1 : World} {p : Prog (Option Bytes)}, Exec w (answer ⟨port, initVersions table⟩ .apiVersions) t w1 p →
      p ≠ .panic ∧ p ≠ .ret none ∧ ∀ payload, p = .ret (some payload) → payload = apiVersionsResponse 0 (supported.map fun e =>
        (BitVec.ofInt 16 e.1, BitVec.ofInt 16 e.2.1, BitVec.ofInt 16 e.2.1)) := by
    intro t w1 p hx
    rcases exec_act_inv hx with ⟨rfl, _⟩ | ⟨t1, w1, r, w2, t2, _, hs, h3, rfl⟩
    · exact ⟨by simp, by simp, by simp⟩
    · obtain ⟨rfl, _⟩ := own_ret_inv h3.own
      refine ⟨by simp, by simp, ?_⟩
      intro payload hx
      cases hx
      rw [apiVersionsList_eq ht hs.2, List.map_map]
      rfl
  rcases request_run (req := .apiVersions) trivial hc hh (by simp [Request.body]) h ha hq with ⟨_, h1, _⟩ | ⟨t1, t2, w1, rfl, _, ⟨h1, _⟩ | ⟨payload, h1, rfl, h3, _⟩⟩
  · exact absurd rfl (hp h1).1
  · exact absurd rfl (hp h1).2.1
  · refine ⟨rfl, supported.map fun e => (BitVec.ofInt 16 e.1, BitVec.ofInt 16 e.2.1, BitVec.ofInt 16 e.2.1), ?_, ?_, ?_⟩
    · rw [h3, (hp h1).2.2 payload rfl]
    · decide
    · intro k v
      have h16 : ∀ x ∈ supported, (BitVec.ofInt 16 x.1).toInt = x.1 ∧ (BitVec.ofInt 16 x.2.1).toInt = x.2.1 := by decide
      simp only [serves, Option.isSome_map, List.find?_isSome, Bool.and_eq_true, beq_iff_eq, List.mem_map]
      constructor
      · rintro ⟨e, ⟨x, hx, rfl⟩, h1, h2, h3⟩
        obtain ⟨e1, e2⟩ := h16 x hx
        simp only [e2] at h2 h3
        refine ⟨x, hx, ?_, by omega⟩
        rw [← h1, e1]
      · rintro ⟨x, hx, h1, h2⟩
        obtain ⟨e1, e2⟩ := h16 x hx
        refine ⟨_, ⟨x, hx, rfl⟩, ?_, ?_, ?_⟩
        · rw [h1]; simp
        · simp only [e2]; omega
        · simp only [e2]; omega

/-- C16: a request of a client without id, answered; the dispatch table iterated in the order in which it is written. -/
example : ∃ tr w', (GoMap.keys apiTable).Perm (GoMap.keys apiTable) ∧ (header 18 0 7 none).length ≤ 4096 ∧
    Exec (World.init 0) (dispatcher ⟨9092, initVersions (GoMap.keys apiTable)⟩ ⟨Request.apiVersions.message 7 none⟩ 10) tr w' (.ret .done) ∧
    AllSent (own tr) := by
  rw [dispatcher_message (req := .apiVersions) trivial _ 7 none (by simp) (by decide) (by decide)]
  exact ⟨_, _, .refl _, by decide, Prog.run_ret (sch := go 6) rfl, allSent_of rfl⟩

end KM.Props
