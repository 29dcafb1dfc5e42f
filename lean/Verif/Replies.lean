import Verif.Net
/-
The responses that a connection has written, and when. No response is empty, so the last bytes of a response are those of the third write of `send` (/repo/kafka-message.go:46), after
which the request is laid down.
-/
set_option linter.unusedTactic false
namespace KM
open Spec Props

/-! ### No response is empty -/

/-- A struct, or a pointer to one, whose first field is encoded with at least two bytes. -/
def Heavy (t : Ty) : Prop := ∃ n f rest, (f = .int16 ∨ f = .int32 ∨ ∃ e, f = .slice e) ∧ (t = .struct (.cons n [] f rest) ∨ t = .ptr (.struct (.cons n [] f rest)))

theorem encodeStruct_heavy {n : String} {f : Ty} {rest : Fields} {v : (Fields.cons n [] f rest).den} {p : Bytes} (hf : f = .int16 ∨ f = .int32 ∨ ∃ e, f = .slice e)
    (h : encodeStruct (.cons n [] f rest) v = some p) : p ≠ [] := by
  obtain ⟨x, y⟩ := v
  unfold encodeStruct at h
  simp only [kafkaTags, bind, pure, Option.bind_eq_some_iff, Option.some.injEq] at h
  obtain ⟨b, h1, bs, _, rfl⟩ := h
  rcases hf with rfl | rfl | ⟨e, rfl⟩
  · unfold encodeObjectWorker at h1
    cases h1; simp [encodeInt16, putBE]
  · unfold encodeObjectWorker at h1
    cases h1; simp [encodeInt32, putBE]
  · unfold encodeObjectWorker at h1
    split at h1
    · cases h1; simp [encodeInt32, putBE]
    · simp only [bind, pure, Option.bind_eq_some_iff, Option.some.injEq] at h1
      obtain ⟨body, _, rfl⟩ := h1
      simp [encodeInt32, putBE]

theorem encodeObject_heavy {t : Ty} {v : t.den} {p : Bytes} (ht : Heavy t) (h : encodeObject t v = some p) : p ≠ [] := by
  obtain ⟨n, f, rest, hf, rfl | rfl⟩ := ht
  · unfold encodeObject encodeObjectWorker at h
    exact encodeStruct_heavy hf h
  · unfold encodeObject encodeObjectWorker at h
    split at h
    · unfold encodeObjectWorker at h
      exact encodeStruct_heavy hf h
    · cases h

theorem own_map {α β : Type} {p : Prog α} {f : α → β} {l : List REv} {y : β} (h : Own (p.map f) l (.ret y)) : ∃ x, y = f x := by
  rcases own_bind_inv h with ⟨p', _, h2⟩ | ⟨_, _, v, _, h2, _⟩
  · cases p' <;> cases h2
    exact ⟨_, rfl⟩
  · cases (own_ret_inv h2).1
    exact ⟨v, rfl⟩

theorem own_bind_left {α β : Type} {p q : Prog α} {l : List REv} (f : α → Prog β) (h : Own p l q) : Own (p.bind f) l (q.bind f) := by
  induction h with
  | refl => exact .refl _
  | act a k r _ ih => exact .act a _ r ih
  | @unroll σ β' s body k l p' _ ih =>
    refine .unroll ?_
    have e : (Prog.unroll s body k).bind f = Prog.unroll s body fun b => (k b).bind f := by
      unfold Prog.unroll
      rw [Prog.bind_assoc]
      congr; funext x; cases x <;> rfl
    rw [← e]; exact ih

theorem own_withRequest {fs : Fields} {r r' : Reader} {k : fs.den → Prog (Option Dyn)} {l : List REv} {d : Dyn} (h : Own (withRequest fs r k) l (.ret (.ok d r'))) :
    ∃ v l', Own (k v) l' (.ret (some d)) := by
  unfold withRequest at h
  split at h
  · cases (own_ret_inv h).1
  · cases (own_panic_inv h).1
  · next v _ _ =>
    rcases own_bind_inv h with ⟨p', h1, h2⟩ | ⟨l1, l2, x, h1, h2, _⟩
    · cases p' with
      | ret x =>
        cases x with
        | none => cases h2
        | some x => cases h2; exact ⟨v, l, h1⟩
      | _ => cases h2
    · cases x with
      | none => cases (own_ret_inv h2).1
      | some x => cases (own_ret_inv h2).1; exact ⟨v, l1, h1⟩

theorem handler_heavy {sv : Server} {api : Api} {r r' : Reader} {l : List REv} {d : Dyn} (h : Own (api.handler sv r) l (.ret (.ok d r'))) : Heavy d.1 := by
  cases api
  case apiVersions =>
    simp only [Api.handler, apiVersionsV0] at h
    rcases own_act_inv h with ⟨h1, _⟩ | ⟨x, l1, _, h1⟩
    · cases h1
    · cases (own_ret_inv h1).1
      exact ⟨_, _, _, .inl rfl, .inl rfl⟩
  case syncGroup =>
    simp only [Api.handler, syncGroupV0] at h
    obtain ⟨⟨_, _, _, as, _⟩, l', h1⟩ := own_withRequest h
    dsimp only at h1
    split at h1
    · cases (own_ret_inv h1).1
    · obtain ⟨x, hx⟩ := own_map h1
      cases hx
      exact ⟨_, _, _, .inl rfl, .inr rfl⟩
  all_goals
    simp only [Api.handler, metadataV1, findCoordinatorV0, offsetFetchV1, joinGroupV1, leaveGroupV0, heartbeatV0, listOffsetsV1, fetchV2, offsetCommitV2] at h
    obtain ⟨v, l', h1⟩ := own_withRequest h
    first
    | (have hx := (own_ret_inv h1).1; cases hx)
    | (obtain ⟨x, hx⟩ := own_map h1; cases hx)
    first
    | exact ⟨_, _, _, .inl rfl, .inr rfl⟩
    | exact ⟨_, _, _, .inr (.inl rfl), .inr rfl⟩
    | exact ⟨_, _, _, .inr (.inr ⟨_, rfl⟩), .inr rfl⟩
    | exact ⟨_, _, _, .inl rfl, .inl rfl⟩
    | exact ⟨_, _, _, .inr (.inl rfl), .inl rfl⟩
    | exact ⟨_, _, _, .inr (.inr ⟨_, rfl⟩), .inl rfl⟩

/-- As `dispatcher_own`; and the response is not empty. -/
theorem dispatcher_answers {sv : Server} {m : Bytes} {n : Nat} {l : List REv} {q : Prog DRes} (h : Own (dispatcher sv ⟨m⟩ n) l q) :
    ((∀ e ∈ l, e.act.socket = false) ∧ q ≠ .ret .done) ∨
    ∃ l1 l2 c payload, l = l1 ++ l2 ∧ (∀ e ∈ l1, e.act.socket = false) ∧ payload ≠ [] ∧ Own (dispatcher sv ⟨m⟩ n) l1 (send c payload) ∧ Own (send c payload) l2 q := by
  by_cases hm : m.length < 8
  · rw [dispatcher_short sv n hm] at h
    obtain ⟨rfl, rfl⟩ := own_ret_inv h
    exact .inl ⟨by simp, by simp⟩
  · obtain ⟨k, v, c, rest, rfl⟩ := header_split (m := m) (by omega)
    rw [dispatcher_header] at h
    unfold dispatchBody at h
    split at h
    · obtain ⟨rfl, rfl⟩ := own_ret_inv h
      exact .inl ⟨by simp, by simp⟩
    · obtain ⟨rfl, rfl⟩ := own_panic_inv h
      exact .inl ⟨by simp, by simp⟩
    · next nx _ hpk =>
      split at h
      · obtain ⟨rfl, rfl⟩ := own_ret_inv h
        exact .inl ⟨by simp, by simp⟩
      · next api hapi =>
        have reach : ∀ {l1 : List REv} {d : Dyn} {r : Reader} {payload : Bytes}, Own (api.handler sv (Reader.discard ⟨encodeInt16 k ++ (encodeInt16 v ++ (encodeInt32 c ++ rest))⟩ nx)) l1 (.ret (.ok d r)) → ¬ (r.peek n).1.length ≠ 0 →
            encodeObject d.1 d.2 = some payload → Own (dispatcher sv ⟨encodeInt16 k ++ (encodeInt16 v ++ (encodeInt32 c ++ rest))⟩ n) l1 (send c payload) := by
          intro l1 d r payload h1 h2 h3
          rw [dispatcher_header]
          unfold dispatchBody
          rw [hpk]
          dsimp only
          rw [hapi]
          have := own_bind_left (finish n c) h1
          rw [Prog.bind_ret] at this
          have e : finish n c (.ok d r) = send c payload := by
            unfold finish
            dsimp only
            rw [if_neg h2, h3]
          rw [e] at this
          exact this
        rcases own_bind_inv h with ⟨p', h1, rfl⟩ | ⟨l1, l2, res, h1, h2, rfl⟩
        · have hs := (h1.only (handler_socket sv api _)).2
          cases p' with
          | act a k => exact .inl ⟨hs, by simp⟩
          | loop s b k => exact .inl ⟨hs, by simp⟩
          | panic => exact .inl ⟨hs, by simp⟩
          | ret res =>
            rw [Prog.bind_ret]
            unfold finish
            split
            · exact .inl ⟨hs, by simp⟩
            · split
              · exact .inl ⟨hs, by simp⟩
              · next hr =>
                split
                · exact .inl ⟨hs, by simp⟩
                · next payload he => exact .inr ⟨l, [], c, payload, by simp, hs, encodeObject_heavy (handler_heavy h1) he, reach h1 hr he, .refl _⟩
        · have hs := (h1.only (handler_socket sv api _)).2
          unfold finish at h2
          split at h2
          · obtain ⟨rfl, rfl⟩ := own_ret_inv h2
            exact .inl ⟨by simpa using hs, by simp⟩
          · split at h2
            · obtain ⟨rfl, rfl⟩ := own_ret_inv h2
              exact .inl ⟨by simpa using hs, by simp⟩
            · next hr =>
              split at h2
              · obtain ⟨rfl, rfl⟩ := own_panic_inv h2
                exact .inl ⟨by simpa using hs, by simp⟩
              · next payload he => exact .inr ⟨l1, l2, c, payload, rfl, hs, encodeObject_heavy (handler_heavy h1) he, reach h1 hr he, h2⟩

/-! ### The responses of a connection -/

/-- A part of a message, with the size that it announces, is not a message. -/
theorem frames_strict {size body z y : Bytes} (hs : size.length = 4) (hb : be size = body.length) (h : size ++ body = z ++ y) (hy : y ≠ []) : frames z = [] := by
  refine frames_incomplete fun ⟨h1, h2⟩ => ?_
  have hl := congrArg List.length h
  have ht : z.take 4 = size := by
    have := congrArg (List.take 4) h
    rw [List.take_append_of_le_length h1, ← hs, List.take_left, hs] at this
    exact this.symm
  have := List.length_pos_of_ne_nil hy
  rw [ht, hb] at h2
  simp only [List.length_append] at hl
  omega

/-- The writes of a whole response. -/
def replyWrites (c : I32) (payload : Bytes) : List REv := [⟨.write (responseSize payload), true⟩, ⟨.write (encodeInt32 c), true⟩, ⟨.write payload, true⟩]

theorem sent_replyWrites (c : I32) (payload : Bytes) : sent (replyWrites c payload) = responseSize payload ++ (encodeInt32 c ++ payload) := by
  simp [replyWrites, sent]

theorem sent_reqBegin (m : Bytes) (u : Unit) (l : List REv) : sent (⟨.reqBegin m, u⟩ :: l) = sent l := rfl
theorem sent_reqEnd (u : Unit) (l : List REv) : sent (⟨.reqEnd, u⟩ :: l) = sent l := rfl

/-- Every response that has been begun on the connection is below 4 GiB: of a request taken up, and answered with a payload after the actions `l2` (before anything is written). -/
def SmallReplies (sv : Server) (l : List REv) : Prop := ∀ (l1 : List REv) (m : Bytes) (l2 l3 : List REv) (c : I32) (payload : Bytes), l = l1 ++ ⟨.reqBegin m, ()⟩ :: (l2 ++ l3) →
  (∀ e ∈ l2, e.act.socket = false) → Own (dispatcher sv ⟨m⟩ m.length) l2 (send c payload) → payload.length + 4 < 2 ^ 32

theorem SmallReplies.tail {sv : Server} {a l : List REv} (h : SmallReplies sv (a ++ l)) : SmallReplies sv l := by
  intro l1 m l2 l3 c payload e
  exact h (a ++ l1) m l2 l3 c payload (by rw [e, List.append_assoc])

theorem SmallReplies.left {sv : Server} {a l : List REv} (h : SmallReplies sv (a ++ l)) : SmallReplies sv a := by
  intro l1 m l2 l3 c payload e
  exact h l1 m l2 (l3 ++ l) c payload (by rw [e]; simp)

/-- A prefix of what has been sent up to the end of a response either has no message or has all of the response. -/
theorem prefix_reply {c : I32} {payload s rest : Bytes} (hp : payload.length + 4 < 2 ^ 32) (h : s <+: responseSize payload ++ (encodeInt32 c ++ payload) ++ rest) :
    frames s = [] ∨ ∃ s', s = responseSize payload ++ (encodeInt32 c ++ payload) ++ s' ∧ s' <+: rest ∧ frames s = (encodeInt32 c ++ payload) :: frames s' := by
  have hl : (responseSize payload).length = 4 := by simp [responseSize, encodeInt32]
  have hb : be (responseSize payload) = (encodeInt32 c ++ payload).length := by rw [be_responseSize hp]; simp [encodeInt32]
  generalize hR : responseSize payload ++ (encodeInt32 c ++ payload) = R at h ⊢
  obtain ⟨t, ht⟩ := h
  rcases List.append_eq_append_iff.1 ht with ⟨y, hy, _⟩ | ⟨s', h1, h2⟩
  · by_cases hy0 : y = []
    · subst hy0
      rw [List.append_nil] at hy
      subst hy
      refine .inr ⟨[], by simp, List.nil_prefix, ?_⟩
      have := frames_cons (s := []) hl hb
      rw [List.append_nil, hR] at this
      exact this
    · exact .inl (frames_strict hl hb (hR.trans hy) hy0)
  · subst h1
    exact .inr ⟨s', rfl, ⟨t, h2.symm⟩, by rw [← hR]; exact frames_cons hl hb⟩

/-- As far as it has got, without a failed write, the dispatcher has written nothing, a part of a response, or a response. -/
theorem dispatcher_writes {sv : Server} {m : Bytes} {n : Nat} {l : List REv} {q : Prog DRes} (h : Own (dispatcher sv ⟨m⟩ n) l q) (ha : AllSent l) :
    (sent l = [] ∧ q ≠ .ret .done) ∨
    ∃ pre c payload, (∀ e ∈ pre, e.act.socket = false) ∧ payload ≠ [] ∧ Own (dispatcher sv ⟨m⟩ n) pre (send c payload) ∧ pre <+: l ∧
      ((q ≠ .ret .done ∧ ∃ y, y ≠ [] ∧ responseSize payload ++ (encodeInt32 c ++ payload) = sent l ++ y) ∨ q = .ret .done ∧ l = pre ++ replyWrites c payload) := by
  rcases dispatcher_answers h with ⟨h1, h2⟩ | ⟨l1, l2, c, payload, rfl, h1, hne, hd, h2⟩
  · have : sent (l ++ []) = [] := sent_silent (x := []) h1
    rw [List.append_nil] at this
    exact .inl ⟨this, h2⟩
  · refine .inr ⟨l1, c, payload, h1, hne, hd, ⟨l2, rfl⟩, ?_⟩
    rcases send_own h2 (allSent_right ha) with ⟨⟨h3, _, _⟩, k, hk, rfl⟩ | ⟨rfl, rfl⟩
    · refine .inl ⟨h3, ?_⟩
      rw [sent_silent h1]
      simp only [List.mem_cons, List.not_mem_nil, or_false] at hk
      rcases hk with rfl | rfl | rfl
      · exact ⟨_, by simp [encodeInt32, putBE], rfl⟩
      · exact ⟨encodeInt32 c ++ payload, by simp [hne], by simp [sent]⟩
      · exact ⟨payload, hne, by simp [sent]⟩
    · exact .inr ⟨rfl, rfl⟩

/-- Whatever part of what a connection has sent has an `i`-th message has all of the response to the `i`-th request taken up. -/
theorem replied {sv : Server} {inb : Bytes} {l : List REv} {q : Prog Unit} (h : Conv sv inb l q) (ha : AllSent l) (hs : SmallReplies sv l) {s : Bytes} (hp : s <+: sent l)
    {i : Nat} {r : Bytes} (hi : (frames s)[i]? = some r) :
    ∃ l1 m pre c payload l2, l = l1 ++ ⟨.reqBegin m, ()⟩ :: (pre ++ replyWrites c payload ++ l2) ∧ (served l1).length = i ∧ (∀ e ∈ pre, e.act.socket = false) ∧ payload ≠ [] ∧
      payload.length + 4 < 2 ^ 32 ∧ Own (dispatcher sv ⟨m⟩ m.length) pre (send c payload) ∧ r = encodeInt32 c ++ payload ∧
      sent (l1 ++ ⟨.reqBegin m, ()⟩ :: (pre ++ replyWrites c payload)) <+: s := by
  have nothing : ∀ {s : Bytes}, s <+: [] → (frames s)[i]? = some r → False := by
    intro s hp hi
    rw [List.prefix_nil.1 hp] at hi
    cases hi
  induction h generalizing s i with
  | head => exact (nothing hp hi).elim
  | part hn hl _ => rcases hl with rfl | ⟨d, rfl⟩ | rfl | ⟨x, rfl⟩ <;> exact (nothing hp hi).elim
  | timeout hn h ih =>
    obtain ⟨l1, m, pre, c, payload, l2, rfl, h1, h2, h3, h4, h5, h6, h7⟩ := ih (allSent_tail (allSent_tail ha)) (SmallReplies.tail (a := [_, _]) hs) hp hi nothing
    exact ⟨_ :: _ :: l1, m, pre, c, payload, l2, rfl, h1, h2, h3, h4, h5, h6, h7⟩
  | ignored hn h ih =>
    obtain ⟨l1, m, pre, c, payload, l2, rfl, h1, h2, h3, h4, h5, h6, h7⟩ := ih (allSent_tail (allSent_tail (allSent_tail ha))) (SmallReplies.tail (a := [_, _, _]) hs) hp hi nothing
    exact ⟨_ :: _ :: _ :: l1, m, pre, c, payload, l2, rfl, h1, h2, h3, h4, h5, h6, h7⟩
  | read hn h ih =>
    obtain ⟨l1, m, pre, c, payload, l2, rfl, h1, h2, h3, h4, h5, h6, h7⟩ := ih (allSent_tail (allSent_tail (allSent_tail ha))) (SmallReplies.tail (a := [_, _, _]) hs) hp hi nothing
    exact ⟨_ :: _ :: _ :: l1, m, pre, c, payload, l2, rfl, h1, h2, h3, h4, h5, h6, h7⟩
  | huge => exact (nothing hp hi).elim
  | begin => exact (nothing hp hi).elim
  | @serving inb m l x q hm hd hq =>
    have hp : s <+: sent l := hp
    rcases dispatcher_writes hd (allSent_tail ha) with ⟨h1, _⟩ | ⟨pre, c, payload, h1, h2, h3, ⟨t, rfl⟩, h4⟩
    · rw [h1] at hp; exact (nothing hp hi).elim
    · have hz := hs [] m pre t c payload rfl h1 h3
      rcases h4 with ⟨_, y, hy, h4⟩ | ⟨_, h4⟩
      · obtain ⟨z, hz'⟩ := hp
        rw [frames_strict (size := responseSize payload) (body := encodeInt32 c ++ payload) (z := s) (y := z ++ y) (by simp [responseSize, encodeInt32])
          (by rw [be_responseSize hz]; simp [encodeInt32]) (by rw [h4, ← hz', List.append_assoc]) (by simp [hy])] at hi
        cases hi
      · rw [h4, sent_silent h1, sent_replyWrites] at hp
        rcases prefix_reply (rest := []) hz (by rw [List.append_nil]; exact hp) with h5 | ⟨s', h5, h6, h7⟩
        · rw [h5] at hi; cases hi
        · rw [List.prefix_nil.1 h6] at h5 h7
          rw [h7] at hi
          cases i with
          | succ i => cases hi
          | zero =>
            cases hi
            refine ⟨[], m, pre, c, payload, [], by rw [h4]; simp, rfl, h1, h2, hz, h3, rfl, ?_⟩
            rw [List.nil_append, sent_reqBegin, sent_silent h1, sent_replyWrites, h5]
            exact ⟨[], rfl⟩
  | @rejected inb m l hm hd =>
    have hp : s <+: sent (l ++ [⟨.reqEnd, ()⟩]) := hp
    rcases dispatcher_own hd with ⟨h1, _⟩ | ⟨l1, l2, c, payload, rfl, h1, _, h2⟩
    · rw [sent_silent h1] at hp
      exact (nothing hp hi).elim
    · rcases send_own h2 (allSent_left (allSent_right (a := _ :: l1) (l := l2 ++ [⟨.reqEnd, ()⟩]) (by simpa using ha))) with ⟨⟨_, h3, _⟩, _⟩ | ⟨h3, _⟩
      · exact absurd rfl h3
      · cases h3
  | @served inb m l l' q hm hd h ih =>
    have hp : s <+: sent (l ++ ⟨.reqEnd, ()⟩ :: l') := hp
    have ha' : AllSent (l ++ ⟨.reqEnd, ()⟩ :: l') := allSent_tail ha
    have hs' : SmallReplies sv l' := SmallReplies.tail (a := ⟨.reqBegin m, ()⟩ :: (l ++ [⟨.reqEnd, ()⟩])) (by simpa using hs)
    rcases dispatcher_writes hd (allSent_left ha') with ⟨_, h1⟩ | ⟨pre, c, payload, h1, h2, h3, ⟨t, rfl⟩, ⟨h4, _⟩ | ⟨_, h4⟩⟩
    · exact absurd rfl h1
    · exact absurd rfl h4
    · have hz := hs [] m pre (t ++ ⟨.reqEnd, ()⟩ :: l') c payload (by simp) h1 h3
      rw [h4] at hp ⊢
      rw [List.append_assoc, sent_silent h1, sent_append, sent_replyWrites, sent_reqEnd] at hp
      rcases prefix_reply hz hp with h5 | ⟨s', h5, h6, h7⟩
      · rw [h5] at hi; cases hi
      · rw [h7] at hi
        cases i with
        | zero =>
          cases hi
          refine ⟨[], m, pre, c, payload, ⟨.reqEnd, ()⟩ :: l', by simp, rfl, h1, h2, hz, h3, rfl, ?_⟩
          rw [List.nil_append, sent_reqBegin, sent_silent h1, sent_replyWrites, h5]
          exact ⟨s', rfl⟩
        | succ i =>
          obtain ⟨l1, m', pre', c', payload', l2, rfl, k1, k2, k3, k4, k5, k6, k7⟩ := ih (allSent_tail (allSent_right ha')) hs' h6 hi (fun h e => by
            rw [List.prefix_nil.1 h] at e; cases e)
          refine ⟨⟨.reqBegin m, ()⟩ :: (pre ++ replyWrites c payload ++ ⟨.reqEnd, ()⟩ :: l1), m', pre', c', payload', l2, by simp, ?_, k2, k3, k4, k5, k6, ?_⟩
          · show (m :: served (pre ++ replyWrites c payload ++ ⟨.reqEnd, ()⟩ :: l1)).length = i + 1
            rw [List.append_assoc, served_inner fun e he => inner_of_socket (h1 e he)]
            exact congrArg (· + 1) k1
          · rw [List.cons_append, sent_reqBegin, List.append_assoc, List.append_assoc, sent_silent h1, sent_append, sent_replyWrites, List.cons_append, sent_reqEnd, h5]
            exact (List.prefix_append_right_inj _).2 k7

/-- When a response has been written, the request is laid down. -/
theorem ends_next {sv : Server} {inb : Bytes} {l : List REv} {q : Prog Unit} (h : Conv sv inb l q) {l1 pre : List REv} {m : Bytes} {c : I32} {payload : Bytes}
    (hl : l = l1 ++ ⟨.reqBegin m, ()⟩ :: (pre ++ replyWrites c payload)) (ha : AllSent l) (hp : ∀ e ∈ pre, e.act.socket = false) : ∃ k, q = .act .reqEnd k := by
  have hne : ∀ {l : List REv}, (∀ e ∈ l, Inner e.act) → (⟨.reqBegin m, ()⟩ : REv) ∉ l := fun h he => h _ he
  have writes : ∀ {l : List REv}, (∀ e ∈ l, e.act.socket = false) → l.countP (fun e => match e.act with | .write _ => true | _ => false) = 0 := by
    intro l h
    rw [List.countP_eq_zero]
    intro e he
    have := h e he
    obtain ⟨a, r⟩ := e
    cases a <;> first | (cases this; done) | nofun
  induction h generalizing l1 with
  | head => cases l1 <;> cases hl
  | part hn h _ =>
    rcases h with rfl | ⟨d, rfl⟩ | rfl | ⟨r, rfl⟩
    · cases l1 <;> cases hl
    · rcases l1 with _ | ⟨_, _ | _⟩ <;> cases hl
    · rcases l1 with _ | ⟨_, _ | ⟨_, _ | _⟩⟩ <;> cases hl
    · rcases l1 with _ | ⟨_, _ | ⟨_, _ | _⟩⟩ <;> cases hl
  | timeout hn h ih =>
    rcases l1 with _ | ⟨_, _ | ⟨_, l1⟩⟩
    · cases hl
    · cases hl
    · simp only [List.cons_append, List.cons.injEq] at hl
      exact ih hl.2.2 (allSent_tail (allSent_tail ha))
  | ignored hn h ih =>
    rcases l1 with _ | ⟨_, _ | ⟨_, _ | ⟨_, l1⟩⟩⟩
    · cases hl
    · cases hl
    · cases hl
    · simp only [List.cons_append, List.cons.injEq] at hl
      exact ih hl.2.2.2 (allSent_tail (allSent_tail (allSent_tail ha)))
  | read hn h ih =>
    rcases l1 with _ | ⟨_, _ | ⟨_, _ | ⟨_, l1⟩⟩⟩
    · cases hl
    · cases hl
    · cases hl
    · simp only [List.cons_append, List.cons.injEq] at hl
      exact ih hl.2.2.2 (allSent_tail (allSent_tail (allSent_tail ha)))
  | huge => cases l1 <;> cases hl
  | begin => cases l1 <;> cases hl
  | @serving inb m' l x q hm hd hq hx =>
    cases l1 with
    | cons y l1 =>
      simp only [List.cons_append, List.cons.injEq] at hl
      exact absurd (by rw [hl.2]; simp) (hne (dispatcher_inner hd))
    | nil =>
      simp only [List.nil_append, List.cons.injEq] at hl
      refine hx ⟨.done, ?_⟩
      have hc : l.countP (fun e => match e.act with | .write _ => true | _ => false) = 3 := by
        rw [hl.2, List.countP_append, writes hp]
        rfl
      rcases dispatcher_own hd with ⟨h1, _⟩ | ⟨l1, l2, c, payload, rfl, h1, _, h2⟩
      · rw [writes h1] at hc; cases hc
      · rcases send_own h2 (allSent_right (allSent_tail ha)) with ⟨_, k, hk, rfl⟩ | ⟨h3, _⟩
        · rw [List.countP_append, writes h1] at hc
          simp only [List.mem_cons, List.not_mem_nil, or_false] at hk
          rcases hk with rfl | rfl | rfl <;> cases hc
        · exact h3
  | @rejected inb m' l hm hd =>
    cases l1 with
    | nil =>
      simp only [List.nil_append, List.cons.injEq] at hl
      have : (⟨.reqEnd, ()⟩ : REv) ∈ pre ++ replyWrites c payload := by rw [← hl.2]; simp
      rcases List.mem_append.1 this with h | h
      · cases hp _ h
      · simp [replyWrites] at h
    | cons y l1 =>
      simp only [List.cons_append, List.cons.injEq] at hl
      obtain ⟨l1', rfl, e⟩ := split_after hl.2 (hne (dispatcher_inner hd))
      rcases l1' with _ | ⟨_, _ | _⟩ <;> cases e
  | @served inb m' l l2' q hm hd h ih =>
    cases l1 with
    | nil =>
      simp only [List.nil_append, List.cons.injEq] at hl
      have : (⟨.reqEnd, ()⟩ : REv) ∈ pre ++ replyWrites c payload := by rw [← hl.2]; simp
      rcases List.mem_append.1 this with h | h
      · cases hp _ h
      · simp [replyWrites] at h
    | cons y l1 =>
      simp only [List.cons_append, List.cons.injEq] at hl
      obtain ⟨l1', rfl, e⟩ := split_after hl.2 (hne (dispatcher_inner hd))
      cases l1' with
      | nil => cases e
      | cons z l1' =>
        simp only [List.cons_append, List.cons.injEq] at e
        exact ih e.2 (allSent_tail (allSent_right (allSent_tail ha)))

/-- What a connection has kept of what it has read, if `kc.stopping` was not set, is the beginning of it. (All of it but what it has read last, if it has not put it into its
buffer yet.) -/
theorem received_readIn {sv : Server} {inb : Bytes} {l : List REv} {q : Prog Unit} (h : Conv sv inb l q) (hs : (⟨.isStopping, true⟩ : REv) ∉ l) : received l <+: readIn l := by
  have inner : ∀ {l x : List REv}, (∀ e ∈ l, Inner e.act) → readIn (l ++ x) = readIn x := by
    intro l x h
    induction l with
    | nil => rfl
    | cons e l ih =>
      have he := h e (List.mem_cons_self ..)
      have := ih fun e he => h e (List.mem_cons_of_mem _ he)
      obtain ⟨a, r⟩ := e
      cases a with
      | recv => exact he.elim
      | _ => exact this
  induction h with
  | head => exact List.nil_prefix
  | part hn hl _ =>
    rcases hl with rfl | ⟨d, rfl⟩ | rfl | ⟨r, rfl⟩
    · exact List.nil_prefix
    · exact List.nil_prefix
    · exact List.nil_prefix
    · cases r <;> exact List.nil_prefix
  | timeout hn h ih => exact ih fun h => hs (by simp [h])
  | ignored hn h ih => exact absurd (by simp) hs
  | @read inb b l q hn h ih =>
    show b ++ received l <+: b ++ readIn l
    exact (List.prefix_append_right_inj _).2 (ih fun h => hs (by simp [h]))
  | huge => exact List.nil_prefix
  | begin => exact List.nil_prefix
  | @serving inb m l x q hm hd =>
    show received l <+: readIn l
    have := received_inner (x := []) (dispatcher_inner hd)
    rw [List.append_nil] at this
    rw [this]; exact List.nil_prefix
  | @rejected inb m l hm hd =>
    show received (l ++ [_]) <+: readIn (l ++ [_])
    rw [received_inner (dispatcher_inner hd)]; exact List.nil_prefix
  | @served inb m l l2 q hm hd h ih =>
    show received (l ++ ⟨.reqEnd, ()⟩ :: l2) <+: readIn (l ++ ⟨.reqEnd, ()⟩ :: l2)
    rw [received_inner (dispatcher_inner hd), inner (dispatcher_inner hd)]
    exact ih fun h => hs (by simp [h])

/-- What is reached from a state in which a program acts is reached after that state. -/
theorem own_same {α : Type} {p : Prog α} {a : Act} {k : a.Resp → Prog α} {l l' : List REv} {v : α} (h1 : Own p l (.act a k)) (h2 : Own p (l ++ l') (.ret v)) :
    Own (.act a k) l' (.ret v) := by
  generalize e : Prog.act a k = q at h1
  induction h1 with
  | refl p => exact h2
  | act b f r _ ih =>
    rcases own_act_inv h2 with ⟨_, x⟩ | ⟨r', l1, x1, x2⟩
    · cases x
    · cases x1
      exact ih x2 e
  | @unroll σ β s body k' l p' _ ih =>
    generalize l ++ l' = z at h2 ih
    cases h2 with
    | unroll h2 => exact ih h2 e

/-- The actions between taking up a request and being done with it. -/
theorem begin_ends {sv : Server} {inb : Bytes} {l : List REv} {q : Prog Unit} (h : Conv sv inb l q) {l1 r : List REv} {m : Bytes} (hl : l = l1 ++ ⟨.reqBegin m, ()⟩ :: r)
    (he : (⟨.reqEnd, ()⟩ : REv) ∈ r) : ∃ d t v, r = d ++ ⟨.reqEnd, ()⟩ :: t ∧ Own (dispatcher sv ⟨m⟩ m.length) d (.ret v) := by
  have hne : ∀ {l : List REv}, (∀ e ∈ l, Inner e.act) → (⟨.reqBegin m, ()⟩ : REv) ∉ l := fun h he => h _ he
  induction h generalizing l1 with
  | head => cases l1 <;> cases hl
  | part hn h _ =>
    rcases h with rfl | ⟨d, rfl⟩ | rfl | ⟨r, rfl⟩
    · cases l1 <;> cases hl
    · obtain ⟨l1', rfl, e⟩ := split_after (a := [⟨.isDone, d⟩]) (b := []) hl (by simp)
      cases l1' <;> cases e
    · obtain ⟨l1', rfl, e⟩ := split_after (a := [⟨.isDone, true⟩, ⟨.close, ()⟩]) (b := []) hl (by simp)
      cases l1' <;> cases e
    · obtain ⟨l1', rfl, e⟩ := split_after (a := [⟨.isDone, false⟩, ⟨.recv, r⟩]) (b := []) hl (by simp)
      cases l1' <;> cases e
  | @timeout inb l q hn h ih =>
    obtain ⟨l1', rfl, e⟩ := split_after (a := [⟨.isDone, false⟩, ⟨.recv, .timeout⟩]) (b := l) hl (by simp)
    exact ih e
  | @ignored inb b l q hn h ih =>
    obtain ⟨l1', rfl, e⟩ := split_after (a := [⟨.isDone, false⟩, ⟨.recv, .data b⟩, ⟨.isStopping, true⟩]) (b := l) hl (by simp)
    exact ih e
  | @read inb b l q hn h ih =>
    obtain ⟨l1', rfl, e⟩ := split_after (a := [⟨.isDone, false⟩, ⟨.recv, .data b⟩, ⟨.isStopping, false⟩]) (b := l) hl (by simp)
    exact ih e
  | huge => cases l1 <;> cases hl
  | begin => cases l1 <;> cases hl
  | @serving inb m' l x q hm hd _ =>
    have hi := dispatcher_inner hd
    cases l1 with
    | nil => cases hl; exact (hi _ he).elim
    | cons x l1 =>
      simp only [List.cons_append, List.cons.injEq] at hl
      exact absurd (by rw [hl.2]; simp) (hne hi)
  | @rejected inb m' l hm hd =>
    have hi := dispatcher_inner hd
    cases l1 with
    | nil => cases hl; exact ⟨l, [], _, rfl, hd⟩
    | cons x l1 =>
      simp only [List.cons_append, List.cons.injEq] at hl
      obtain ⟨l1', rfl, e⟩ := split_after hl.2 (hne hi)
      rcases l1' with _ | ⟨_, _ | _⟩ <;> cases e
  | @served inb m' l l2 q hm hd h ih =>
    have hi := dispatcher_inner hd
    cases l1 with
    | nil => cases hl; exact ⟨l, l2, _, rfl, hd⟩
    | cons x l1 =>
      simp only [List.cons_append, List.cons.injEq] at hl
      obtain ⟨l1', rfl, e⟩ := split_after hl.2 (hne hi)
      rcases l1' with _ | ⟨y, l1'⟩
      · cases e
      · simp only [List.cons_append, List.cons.injEq] at e
        exact ih e.2

/-- When every request taken up has been answered, it is enough that what has been written is below 4 GiB. -/
theorem smallReplies_of {sv : Server} {inb : Bytes} {l : List REv} {q : Prog Unit} (h : Conv sv inb l q) (ha : AllSent l) (hs : Small l)
    (hd : ∀ l1 m r, l = l1 ++ ⟨.reqBegin m, ()⟩ :: r → (⟨.reqEnd, ()⟩ : REv) ∈ r) : SmallReplies sv l := by
  intro l1 m l2 l3 c payload e hl2 ho
  obtain ⟨d, t, v, h1, h2⟩ := begin_ends h e (hd _ _ _ e)
  obtain ⟨z, rfl, h3⟩ := split_after h1 (fun hm => by cases hl2 _ hm)
  have h4 := own_same ho h2
  have hz : AllSent z := fun b hb => ha b (by rw [e, h3]; simp [hb])
  rcases send_own h4 hz with ⟨⟨x1, x2, _⟩, _⟩ | ⟨_, rfl⟩
  · cases v
    · exact absurd rfl x2
    · exact absurd rfl x1
  · exact hs payload true (by rw [e, h3]; simp)

end KM
