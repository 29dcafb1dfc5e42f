import Verif.Accepts
import Verif.Props.Request
/-
The messages that the dispatcher takes for a request: it does with each of them what it does with the proper message of the request.
-/
namespace KM.Props
open KM Spec

/-- The bytes are an accepted message of the request: the proper message of the request (`Request.message`), up to the lengths that stand for absent strings. -/
def Accepted (req : Request) (c : I32) (client : Option Bytes) : Lang := acceptedHeader req.api.1 req.api.2 c client ++ req.accepted

/-- Header and body of the request each fit the read buffer. -/
def FitsBuffer (req : Request) (c : I32) (client : Option Bytes) : Prop := (header req.api.1 req.api.2 c client).length ≤ 4096 ∧ req.body.length ≤ 4096

theorem entry_pair {req : Request} {k v : I16} (h : serves k.toInt v.toInt = some req.entry) : req.api = (k, v) := by
  have hm : (k.toInt, v.toInt, req.entry) ∈ supported := by
    unfold serves at h
    obtain ⟨e, h1, h2⟩ := Option.map_eq_some_iff.1 h
    have h3 := List.find?_some h1
    simp only [Bool.and_eq_true, beq_iff_eq] at h3
    rw [← h2, ← h3.1, ← h3.2]
    exact List.mem_of_find?_eq_some h1
  have key : ∀ {a b : Int} {x y : I16}, x.toInt = a ∧ y.toInt = b → k.toInt = a ∧ v.toInt = b → (x, y) = (k, v) := by
    rintro a b x y ⟨h1, h2⟩ ⟨h3, h4⟩
    rw [BitVec.eq_of_toInt_eq (h1.trans h3.symm), BitVec.eq_of_toInt_eq (h2.trans h4.symm)]
  cases req <;> simp only [supported, Request.entry, List.mem_cons, Prod.mk.injEq, reduceCtorEq, and_false, or_false, false_or, and_true, List.not_mem_nil] at hm <;>
    exact key (by decide) hm

/-- A message that is accepted is processed as the proper message of the request, whatever follows it. -/
theorem dispatcher_accepted (sv : Server) {req : Request} {c : I32} {client : Option Bytes} {a : Bytes} (ha : Accepted req c client a) (hf : FitsBuffer req c client)
    (extra : Bytes) (n : Nat) : dispatcher sv ⟨a ++ extra⟩ n = dispatcher sv ⟨req.message c client ++ extra⟩ n := by
  obtain ⟨h, b, rfl, hh, hb⟩ := ha
  have wf := accepted_wf hb
  have hl : h.length ≤ 4096 := by rw [header_like _ _ _ _ h hh]; exact hf.1
  have bl : b.length ≤ 4096 := by rw [accepted_like req b hb]; exact hf.2
  have hc : ∀ x ∈ client, ShortStr x := by
    obtain ⟨_, _, _, _, q⟩ := hh
    exact short_nullableStr q
  rw [dispatcher_request wf sv c client hc hf.1 hf.2, List.append_assoc, dispatcher_eq,
    (reads_acceptedHeader hh ⟨h ++ (b ++ extra)⟩ 0 (Nat.zero_le _)).1 ((b ++ extra).take (4096 - h.length)) (by
      rw [window_take, List.drop_zero, List.take_append, List.take_of_length_le hl])]
  dsimp only
  rw [apiTable_get, entry_api, Nat.zero_add, show (Reader.discard ⟨h ++ (b ++ extra)⟩ h.length) = ⟨b ++ extra⟩ by simp [Reader.discard]]
  dsimp only
  have e : req.entry.handler sv ⟨b ++ extra⟩ = req.entry.handler sv ⟨req.body ++ extra⟩ := by
    cases hv : req.value with
    | none =>
      cases req with
      | apiVersions => have hb : b = [] := hb; subst hb; rfl
      | _ => cases hv
    | some x =>
      obtain ⟨fs, v⟩ := x
      have r1 := readRequest_ok (accepted_reads hv b hb) bl extra
      have r2 := readRequest_ok (request_reads wf hv) hf.2 extra
      cases req with
      | apiVersions => cases hv
      | _ =>
        cases hv
        show withRequest _ _ _ = withRequest _ _ _
        unfold withRequest
        rw [r1, r2]
  rw [e, handler_ok wf sv hf.2]
  exact serve_answer sv req c n extra

/-- A proper message is accepted. -/
theorem accepted_proper {req : Request} (h : req.WellFormed) (c : I32) {client : Option Bytes} (hc : ∀ x ∈ client, ShortStr x) : Accepted req c client (req.message c client) := by
  have str_mem : ∀ {s : Bytes}, ShortStr s → Loose.str s (str s) := fun h => .inl ⟨h, rfl⟩
  have null_mem : ∀ {s : Option Bytes}, (∀ x ∈ s, ShortStr x) → Loose.nullableStr s (nullableStr s) := by
    intro s h
    cases s with
    | none => exact ⟨-1, by decide, rfl⟩
    | some s => exact ⟨h s rfl, rfl⟩
  have cat : ∀ {L M : Lang} {a b : Bytes}, L a → M b → (L ++ M) (a ++ b) := fun h1 h2 => ⟨_, _, rfl, h1, h2⟩
  have arr : ∀ {α : Type} {f : α → Lang} {g : α → Bytes} {xs : List α}, ShortList xs → (∀ x ∈ xs, f x (g x)) → Loose.array f xs (array g xs) := by
    intro α f g xs hl hx
    refine ⟨hl, cat rfl ?_⟩
    clear hl
    induction xs with
    | nil => exact rfl
    | cons x xs ih =>
      rw [List.flatMap_cons]
      exact cat (hx x (List.mem_cons_self ..)) (ih fun y hy => hx y (List.mem_cons_of_mem _ hy))
  refine cat (cat rfl (null_mem hc)) ?_
  cases req with
  | fetch q =>
    simp only [Request.accepted, Request.body, List.append_assoc]
    exact cat rfl <| cat rfl <| cat rfl <| arr h.1 fun t ht => cat (str_mem (h.2 t ht).1) <| arr (h.2 t ht).2 fun p _ => cat rfl <| cat rfl rfl
  | listOffsets q => exact cat rfl <| arr h.1 fun t ht => cat (str_mem (h.2 t ht).1) <| arr (h.2 t ht).2 fun p _ => cat rfl rfl
  | metadata ts => exact arr h.1 fun t ht => str_mem (h.2 t ht)
  | offsetCommit q =>
    simp only [Request.accepted, Request.body, List.append_assoc]
    exact cat (str_mem h.1) <| cat rfl <| cat (str_mem h.2.1) <| cat rfl <| arr h.2.2.1 fun t ht => cat (str_mem (h.2.2.2 t ht).1) <|
      arr (h.2.2.2 t ht).2.1 fun p hp => cat rfl <| cat rfl <| null_mem ((h.2.2.2 t ht).2.2 p hp)
  | offsetFetch q => exact cat (str_mem h.1) <| arr h.2.1 fun t ht => cat (str_mem (h.2.2 t ht).1) <| arr (h.2.2 t ht).2 fun p _ => rfl
  | findCoordinator key => exact str_mem h
  | joinGroup =>
    simp only [Request.accepted, Request.body, List.append_assoc]
    exact cat (str_mem h.1) <| cat rfl <| cat rfl <| cat (str_mem h.2.1) <| cat (str_mem h.2.2.1) <| arr h.2.2.2.1 fun t ht =>
      cat (str_mem (h.2.2.2.2 t ht).1) ⟨(h.2.2.2.2 t ht).2, rfl⟩
  | heartbeat =>
    simp only [Request.accepted, Request.body, List.append_assoc]
    exact cat (str_mem h.1) <| cat rfl <| str_mem h.2
  | leaveGroup => exact cat (str_mem h.1) <| str_mem h.2
  | syncGroup =>
    simp only [Request.accepted, Request.body, List.append_assoc]
    exact cat (str_mem h.1) <| cat rfl <| cat (str_mem h.2.1) <| arr h.2.2.1 fun t ht => cat (str_mem (h.2.2.2 t ht).1) ⟨(h.2.2.2 t ht).2, rfl⟩
  | apiVersions => exact rfl

/-! ### An accepted message is an accepted message of one request only -/

/-- The length of an accepted message. -/
theorem accepted_length {req : Request} {c : I32} {client : Option Bytes} {m : Bytes} (ha : Accepted req c client m) : m.length = (req.message c client).length := by
  obtain ⟨h, b, rfl, hh, hb⟩ := ha
  rw [Request.message, List.length_append, List.length_append, header_like _ _ _ _ h hh, accepted_like req b hb]

/-- The client id of an accepted message. -/
theorem accepted_client {req : Request} {c : I32} {client : Option Bytes} {m : Bytes} (ha : Accepted req c client m) : ∀ x ∈ client, ShortStr x := by
  obtain ⟨_, _, _, ⟨_, _, _, _, q⟩, _⟩ := ha
  exact short_nullableStr q

/-- The request of an accepted message is well-formed. -/
theorem accepted_wellFormed {req : Request} {c : I32} {client : Option Bytes} {m : Bytes} (ha : Accepted req c client m) : req.WellFormed := by
  obtain ⟨_, _, _, _, hb⟩ := ha
  exact accepted_wf hb

end KM.Props
