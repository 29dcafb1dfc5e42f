import Verif.Spec.Conn
import Verif.Codec.VarintSpec
import Verif.Codec.RoundTrip
import Verif.Loop
/-
The own actions of a connection goroutine, cut into rounds, and lemmas about the specification of `Verif/Spec/Conn.lean`.
-/
namespace KM

/-! ### Framing -/

namespace Spec

theorem framesN_eq (n : Nat) (s : Bytes) (h : s.length ≤ n) : framesN n s = frames s := by
  unfold frames
  induction n generalizing s with
  | zero =>
    have : s = [] := List.eq_nil_of_length_eq_zero (by omega)
    subst this; rfl
  | succ n ih =>
    cases hs : s.length with
    | zero =>
      have : s = [] := List.eq_nil_of_length_eq_zero hs
      subst this; simp [framesN]
    | succ k =>
      simp only [framesN]
      split
      · next hc =>
        have hd : (s.drop (4 + be (s.take 4))).length = s.length - (4 + be (s.take 4)) := List.length_drop ..
        rw [ih _ (by omega)]
        congr 1
        -- same with fuel `k`
        have : ∀ (k : Nat) (t : Bytes), t.length ≤ k → framesN t.length t = framesN k t := by
          intro k
          induction k with
          | zero => intro t ht; rw [show t.length = 0 by omega]
          | succ k ihk =>
            intro t ht
            cases ht' : t.length with
            | zero =>
              have : t = [] := List.eq_nil_of_length_eq_zero ht'
              subst this; simp [framesN]
            | succ j =>
              simp only [framesN]
              split
              · have hd : (t.drop (4 + be (t.take 4))).length = t.length - (4 + be (t.take 4)) := List.length_drop ..
                congr 1
                rw [← ihk _ (by omega)]
                exact framesN_fuel j _ (by omega)
              · rfl
        exact this k _ (by omega)
      · rfl
where
  framesN_fuel (j : Nat) (t : Bytes) (h : t.length ≤ j) : framesN j t = framesN t.length t := by
    induction j using Nat.strongRecOn generalizing t with
    | ind j ih =>
      cases j with
      | zero => rw [show t.length = 0 by omega]
      | succ j =>
        cases ht : t.length with
        | zero =>
          have : t = [] := List.eq_nil_of_length_eq_zero ht
          subst this; simp [framesN]
        | succ i =>
          simp only [framesN]
          split
          · have hd : (t.drop (4 + be (t.take 4))).length = t.length - (4 + be (t.take 4)) := List.length_drop ..
            congr 1
            rw [ih j (by omega) _ (by omega), ih i (by omega) _ (by omega)]
          · rfl

theorem frames_eq (s : Bytes) : frames s =
    if 4 ≤ s.length ∧ 4 + be (s.take 4) ≤ s.length then (s.drop 4).take (be (s.take 4)) :: frames (s.drop (4 + be (s.take 4))) else [] := by
  conv => lhs; rw [← framesN_eq (s.length + 1) s (by omega)]
  simp only [framesN]
  split
  · have hd : (s.drop (4 + be (s.take 4))).length = s.length - (4 + be (s.take 4)) := List.length_drop ..
    rw [framesN_eq _ _ (by omega)]
  · rfl

theorem frames_incomplete {s : Bytes} (h : ¬ (4 ≤ s.length ∧ 4 + be (s.take 4) ≤ s.length)) : frames s = [] := by
  rw [frames_eq, if_neg h]

/-- A message with a correct size is split off. -/
theorem frames_cons {p m s : Bytes} (hp : p.length = 4) (hm : be p = m.length) : frames (p ++ m ++ s) = m :: frames s := by
  have h1 : (p ++ m ++ s).take 4 = p := by rw [List.append_assoc, ← hp, List.take_left]
  have h2 : (p ++ m ++ s).drop 4 = m ++ s := by rw [List.append_assoc, ← hp, List.drop_left]
  rw [frames_eq, h1, h2, hm]
  rw [if_pos (by simp only [List.length_append]; omega), List.take_left]
  congr 2
  rw [← List.drop_drop, h2, List.drop_left]

/-- A complete message at the start stays when more bytes arrive. -/
theorem frames_append_cons {a s : Bytes} (h : 4 ≤ a.length ∧ 4 + be (a.take 4) ≤ a.length) :
    frames (a ++ s) = (a.drop 4).take (be (a.take 4)) :: frames (a.drop (4 + be (a.take 4)) ++ s) := by
  rw [frames_eq, List.take_append_of_le_length h.1, if_pos (by simp only [List.length_append]; omega),
    List.drop_append_of_le_length h.1, List.take_append_of_le_length (by rw [List.length_drop]; omega),
    List.drop_append_of_le_length h.2]

end Spec

theorem getMessage_none {b : Bytes} : getMessage b = .none → ¬ (4 ≤ b.length ∧ 4 + Spec.be (b.take 4) ≤ b.length) := by
  unfold getMessage
  rw [getBE_eq_be]
  intro h
  by_cases h1 : b.length < 4
  · omega
  · rw [if_neg h1] at h
    dsimp only at h
    by_cases h2 : b.length < Spec.be (b.take 4) + 4
    · omega
    · rw [if_neg h2] at h
      split at h <;> cases h

theorem getMessage_ready {b m : Bytes} (h : getMessage b = .ready m) :
    (4 ≤ b.length ∧ 4 + Spec.be (b.take 4) ≤ b.length) ∧ m = (b.drop 4).take (Spec.be (b.take 4)) ∧ m.length = Spec.be (b.take 4) := by
  unfold getMessage at h
  rw [getBE_eq_be] at h
  by_cases h1 : b.length < 4
  · rw [if_pos h1] at h; cases h
  · rw [if_neg h1] at h
    dsimp only at h
    by_cases h2 : b.length < Spec.be (b.take 4) + 4
    · rw [if_pos h2] at h; cases h
    · rw [if_neg h2] at h
      have hlt : Spec.be (b.take 4) < 256 ^ 4 := by
        have := getBE_lt (b.take 4)
        rw [getBE_eq_be, List.length_take, Nat.min_eq_left (by omega)] at this
        exact this
      split at h
      · cases h
      · next h3 =>
        have e : (4 + Spec.be (b.take 4)) % 2 ^ 32 = 4 + Spec.be (b.take 4) := by omega
        rw [e] at h
        cases h
        have e2 : List.drop 4 (List.take (4 + Spec.be (List.take 4 b)) b) = List.take (Spec.be (List.take 4 b)) (List.drop 4 b) := by
          rw [List.take_drop]
        refine ⟨⟨by omega, by omega⟩, e2, ?_⟩
        rw [e2, List.length_take, List.length_drop]; omega

/-- A message whose size does not fit is never passed on; the process panics, which needs 4 GiB of input. -/
theorem getMessage_panic {b : Bytes} (h : getMessage b = .panic) : 2 ^ 32 - 4 ≤ Spec.be (b.take 4) := by
  unfold getMessage at h
  rw [getBE_eq_be] at h
  by_cases h1 : b.length < 4
  · rw [if_pos h1] at h; cases h
  · rw [if_neg h1] at h
    dsimp only at h
    by_cases h2 : b.length < Spec.be (b.take 4) + 4
    · rw [if_pos h2] at h; cases h
    · rw [if_neg h2] at h
      have hlt : Spec.be (b.take 4) < 256 ^ 4 := by
        have := getBE_lt (b.take 4)
        rw [getBE_eq_be, List.length_take, Nat.min_eq_left (by omega)] at this
        exact this
      split at h
      · omega
      · cases h

/-! ### The request header -/

theorem putBE_getBE (b : Bytes) : putBE b.length (getBE b) = b := by
  have key : ∀ (b : Bytes) (a : Nat), putBE b.length (a * 256 ^ b.length + getBE b) = b := by
    intro b
    induction b with
    | nil => intro a; rfl
    | cons x b ih =>
      intro a
      rw [List.length_cons, putBE, getBE_cons]
      have hlt := getBE_lt b
      congr 1
      · have hx : x.toNat < 256 := x.toNat_lt
        have : (a * 256 ^ (b.length + 1) + (x.toNat * 256 ^ b.length + getBE b)) / 256 ^ b.length = a * 256 + x.toNat := by
          rw [Nat.pow_succ, ← Nat.mul_assoc, Nat.mul_right_comm, ← Nat.add_assoc, ← Nat.add_mul, Nat.mul_comm (a * 256 + x.toNat),
            Nat.mul_add_div (by exact Nat.pow_pos (by decide)), Nat.div_eq_of_lt hlt, Nat.add_zero]
        rw [this]
        apply UInt8.toNat.inj
        rw [UInt8.toNat_ofNat']
        omega
      · have : a * 256 ^ (b.length + 1) + (x.toNat * 256 ^ b.length + getBE b) = (a * 256 + x.toNat) * 256 ^ b.length + getBE b := by
          rw [Nat.pow_succ, Nat.add_mul, Nat.mul_assoc, Nat.mul_comm 256]; omega
        rw [this]; exact ih _
  simpa using key b 0

theorem encodeInt16_getBE {b : Bytes} (h : b.length = 2) : encodeInt16 (BitVec.ofNat 16 (getBE b)) = b := by
  have := getBE_lt b
  rw [encodeInt16, BitVec.toNat_ofNat, Nat.mod_eq_of_lt (by rw [h] at this; exact this), ← h, putBE_getBE]

theorem encodeInt32_getBE {b : Bytes} (h : b.length = 4) : encodeInt32 (BitVec.ofNat 32 (getBE b)) = b := by
  have := getBE_lt b
  rw [encodeInt32, BitVec.toNat_ofNat, Nat.mod_eq_of_lt (by rw [h] at this; exact this), ← h, putBE_getBE]

@[simp] theorem encodeInt16_length (v : I16) : (encodeInt16 v).length = 2 := by simp [encodeInt16]
@[simp] theorem encodeInt32_length (v : I32) : (encodeInt32 v).length = 4 := by simp [encodeInt32]

/-- A message of at least eight bytes starts with an api key, a version and a correlation id. -/
theorem header_split {m : Bytes} (h : 8 ≤ m.length) :
    ∃ (k v : I16) (c : I32) (rest : Bytes), m = encodeInt16 k ++ (encodeInt16 v ++ (encodeInt32 c ++ rest)) := by
  refine ⟨BitVec.ofNat 16 (getBE (m.take 2)), BitVec.ofNat 16 (getBE ((m.drop 2).take 2)), BitVec.ofNat 32 (getBE ((m.drop 4).take 4)), m.drop 8, ?_⟩
  rw [encodeInt16_getBE (by simp; omega), encodeInt16_getBE (by simp; omega), encodeInt32_getBE (by simp; omega)]
  have h1 := List.take_append_drop 2 m
  have h2 := List.take_append_drop 2 (m.drop 2)
  have h3 := List.take_append_drop 4 (m.drop 4)
  rw [List.drop_drop] at h2 h3
  rw [h3, h2, h1]

theorem at_zero {a b : Bytes} (h : a.length ≤ 4096) : At ⟨a ++ b⟩ 0 a :=
  ⟨[], b.take (4096 - a.length), by
    simp only [Reader.window, defaultBufSize, List.nil_append]
    rw [List.take_append, List.take_of_length_le h], rfl⟩

theorem header_ok (k v : I16) (c : I32) (rest : Bytes) :
    peekObject (.struct headerFields) ⟨encodeInt16 k ++ (encodeInt16 v ++ (encodeInt32 c ++ rest))⟩ 0 = .ok 8 (some (k, v, c, ())) := by
  have h : At ⟨encodeInt16 k ++ (encodeInt16 v ++ (encodeInt32 c ++ rest))⟩ 0 (encodeInt16 k ++ (encodeInt16 v ++ encodeInt32 c)) := by
    have := at_zero (a := encodeInt16 k ++ (encodeInt16 v ++ encodeInt32 c)) (b := rest) (by simp)
    simpa only [List.append_assoc] using this
  obtain ⟨h1, h2⟩ := h.append
  obtain ⟨h2, h3⟩ := h2.append
  have e1 := peekInt16_at h1
  have e2 := peekInt16_at h2
  have e3 := peekInt32_at h3
  simp only [encodeInt16_length] at e1 e2 e3
  simp only [peekObject, peekObjectWorker, peekObjectStruct, e1, e2, e3, Res.map_ok, Res.bind_ok, Ty.assignable, if_true]

theorem peekFixedData_short {r : Reader} {off n : Nat} (h : r.rest.length < off + n) : peekFixedData r off n = .short := by
  simp only [peekFixedData, Reader.peek_eq, decide_eq_true_eq]
  rw [if_pos]
  unfold Reader.window
  rw [List.length_take]; omega

theorem header_short {m : Bytes} (h : m.length < 8) : peekObject (.struct headerFields) ⟨m⟩ 0 = .short := by
  by_cases h2 : m.length < 2
  · simp [peekObject, peekObjectWorker, peekObjectStruct, peekInt16, peekFixedData_short (r := ⟨m⟩) (off := 0) (n := 2) (by simpa using h2)]
  · have e1 : ∃ x, peekFixedData ⟨m⟩ 0 2 = .ok 2 x := by
      have := at_zero (a := m.take 2) (b := m.drop 2) (by simp; omega)
      rw [List.take_append_drop] at this
      exact ⟨_, peekFixedData_at' this (by simp; omega)⟩
    obtain ⟨x, e1⟩ := e1
    by_cases h4 : m.length < 4
    · simp [peekObject, peekObjectWorker, peekObjectStruct, peekInt16, e1, Ty.assignable,
        peekFixedData_short (r := ⟨m⟩) (off := 2) (n := 2) (by simpa using h4)]
    · have e2 : ∃ x, peekFixedData ⟨m⟩ 2 2 = .ok 4 x := by
        have := (at_zero (a := m.take 2 ++ (m.drop 2).take 2) (b := m.drop 4) (by simp; omega)).append.2
        rw [List.append_assoc] at this
        have e := List.take_append_drop 2 (m.drop 2)
        rw [List.drop_drop] at e
        rw [e, List.take_append_drop, List.length_take, Nat.min_eq_left (by omega)] at this
        exact ⟨_, peekFixedData_at' this (by simp; omega)⟩
      obtain ⟨y, e2⟩ := e2
      simp [peekObject, peekObjectWorker, peekObjectStruct, peekInt16, peekInt32, e1, e2, Ty.assignable,
        peekFixedData_short (r := ⟨m⟩) (off := 4) (n := 4) (by simpa using h)]

/-- The dispatcher after the fixed part of the header. -/
def dispatchBody (sv : Server) (r : Reader) (n : Nat) (k v : I16) (c : I32) : Prog DRes :=
  match peekString r 8 with
  | .short => .ret .err
  | .panic => .panic
  | .ok next _ =>
    match GoMap.get apiTable (makeApiKey k.toInt v.toInt) with
    | none => .ret .err
    | some api => (api.handler sv (r.discard next)).bind (finish n c)

theorem dispatcher_short (sv : Server) {m : Bytes} (n : Nat) (h : m.length < 8) : dispatcher sv ⟨m⟩ n = .ret .err := by
  unfold dispatcher; rw [header_short h]

theorem dispatcher_header (sv : Server) (k v : I16) (c : I32) (rest : Bytes) (n : Nat) :
    dispatcher sv ⟨encodeInt16 k ++ (encodeInt16 v ++ (encodeInt32 c ++ rest))⟩ n =
      dispatchBody sv ⟨encodeInt16 k ++ (encodeInt16 v ++ (encodeInt32 c ++ rest))⟩ n k v c := by
  unfold dispatcher; rw [header_ok]; rfl

theorem requestCorrelation_header (k v : I16) (c : I32) (rest : Bytes) :
    Spec.requestCorrelation (encodeInt16 k ++ (encodeInt16 v ++ (encodeInt32 c ++ rest))) = encodeInt32 c := by
  unfold Spec.requestCorrelation
  rw [show (4 : Nat) = 2 + 2 from rfl, ← List.drop_drop]
  have h1 : ∀ (a : I16) (x : Bytes), (encodeInt16 a ++ x).drop 2 = x := fun a x => by rw [← encodeInt16_length a, List.drop_left]
  rw [h1, h1, show 2 + 2 = (encodeInt32 c).length by simp, List.take_left]

/-! ### Own actions of the dispatcher -/

theorem Own.only {α : Type} {S : Act → Prop} {p p' : Prog α} {l : List REv} (h : Own p l p') (hp : p.Only S) :
    p'.Only S ∧ ∀ e ∈ l, S e.act := by
  induction h with
  | refl => exact ⟨hp, by simp⟩
  | act a k r h ih =>
    obtain ⟨h1, h2⟩ := ih (hp.2 r)
    refine ⟨h1, ?_⟩
    intro e he
    rcases List.mem_cons.1 he with rfl | he
    · exact hp.1
    · exact h2 e he
  | unroll _ ih => exact ih hp.unroll

/-- Not one of the connection loop's own actions. -/
def Inner : Act → Prop
  | .recv | .isStopping | .reqBegin _ | .reqEnd | .close => False
  | _ => True

theorem inner_of_socket {a : Act} (h : a.socket = false) : Inner a := by cases a <;> first | trivial | cases h

theorem send_inner (c : I32) (b : Bytes) : (send c b).Only Inner := by
  have hf : sendFailed.Only Inner := ⟨trivial, fun _ => trivial⟩
  refine ⟨trivial, fun ok1 => ?_⟩
  cases ok1
  · exact hf
  · refine ⟨trivial, fun ok2 => ?_⟩
    cases ok2
    · exact hf
    · refine ⟨trivial, fun ok3 => ?_⟩
      cases ok3
      · exact hf
      · trivial

/-- A run of the dispatcher: either it has not begun to answer, or it is answering with the correlation id of the request. -/
theorem dispatcher_own {sv : Server} {m : Bytes} {n : Nat} {l : List REv} {q : Prog DRes} (h : Own (dispatcher sv ⟨m⟩ n) l q) :
    ((∀ e ∈ l, e.act.socket = false) ∧ q ≠ .ret .done) ∨
    ∃ l1 l2 c payload, l = l1 ++ l2 ∧ (∀ e ∈ l1, e.act.socket = false) ∧ Spec.requestCorrelation m = encodeInt32 c ∧ Own (send c payload) l2 q := by
  by_cases hm : m.length < 8
  · rw [dispatcher_short sv n hm] at h
    obtain ⟨rfl, rfl⟩ := own_ret_inv h
    exact .inl ⟨by simp, by simp⟩
  · obtain ⟨k, v, c, rest, rfl⟩ := header_split (m := m) (by omega)
    rw [dispatcher_header] at h
    unfold dispatchBody at h
    split at h
    · obtain ⟨rfl, rfl⟩ := own_ret_inv h
      exact .inl ⟨by simp, by simp⟩
    · obtain ⟨rfl, rfl⟩ := own_panic_inv h
      exact .inl ⟨by simp, by simp⟩
    · split at h
      · obtain ⟨rfl, rfl⟩ := own_ret_inv h
        exact .inl ⟨by simp, by simp⟩
      · next api _ =>
        rcases own_bind_inv h with ⟨p', h1, rfl⟩ | ⟨l1, l2, res, h1, h2, rfl⟩
        · have hs := (h1.only (handler_socket sv api _)).2
          cases p' with
          | act a k => exact .inl ⟨hs, by simp⟩
          | loop s b k => exact .inl ⟨hs, by simp⟩
          | panic => exact .inl ⟨hs, by simp⟩
          | ret res =>
            rw [Prog.bind_ret]
            unfold finish
            split
            · exact .inl ⟨hs, by simp⟩
            · split
              · exact .inl ⟨hs, by simp⟩
              · split
                · exact .inl ⟨hs, by simp⟩
                · next payload _ => exact .inr ⟨l, [], c, payload, by simp, hs, requestCorrelation_header .., .refl _⟩
        · have hs := (h1.only (handler_socket sv api _)).2
          unfold finish at h2
          split at h2
          · obtain ⟨rfl, rfl⟩ := own_ret_inv h2
            exact .inl ⟨by simpa using hs, by simp⟩
          · split at h2
            · obtain ⟨rfl, rfl⟩ := own_ret_inv h2
              exact .inl ⟨by simpa using hs, by simp⟩
            · split at h2
              · obtain ⟨rfl, rfl⟩ := own_panic_inv h2
                exact .inl ⟨by simpa using hs, by simp⟩
              · next payload _ => exact .inr ⟨l1, l2, c, payload, rfl, hs, requestCorrelation_header .., h2⟩

theorem dispatcher_inner {sv : Server} {m : Bytes} {n : Nat} {l : List REv} {q : Prog DRes} (h : Own (dispatcher sv ⟨m⟩ n) l q) :
    ∀ e ∈ l, Inner e.act := by
  rcases dispatcher_own h with ⟨h1, _⟩ | ⟨l1, l2, c, payload, rfl, h1, _, h2⟩
  · exact fun e he => inner_of_socket (h1 e he)
  · have := (h2.only (send_inner c payload)).2
    intro e he
    rcases List.mem_append.1 he with he | he
    · exact inner_of_socket (h1 e he)
    · exact this e he

/-! ### Rounds of the connection loop -/

/-- The own actions of a connection goroutine from the buffer content `inb` on, and what is left of the program. -/
inductive Conv (sv : Server) : Bytes → List REv → Prog Unit → Prop where
  /-- at the loop head -/
  | head (inb : Bytes) : Conv sv inb [] (.loop inb (handleBody sv) .ret)
  /-- about to read, or reading, or closing -/
  | part {inb : Bytes} {l : List REv} {q : Prog Unit} (hn : getMessage inb = .none)
      (hl : l = [] ∨ (∃ d, l = [⟨.isDone, d⟩]) ∨ l = [⟨.isDone, true⟩, ⟨.close, ()⟩] ∨ ∃ r, l = [⟨.isDone, false⟩, ⟨.recv, r⟩])
      (hq : q = .ret () → l = [⟨.isDone, true⟩, ⟨.close, ()⟩] ∨ l = [⟨.isDone, false⟩, ⟨.recv, .closed⟩])
      (hr : (l = [⟨.isDone, false⟩, ⟨.recv, .closed⟩] → q = .ret ()) ∧ (l = [⟨.isDone, false⟩, ⟨.recv, .failed⟩] → q = .panic))
      (hp : q = .panic → l = [⟨.isDone, false⟩, ⟨.recv, .failed⟩]) : Conv sv inb l q
  | timeout {inb : Bytes} {l : List REv} {q : Prog Unit} (hn : getMessage inb = .none) (h : Conv sv inb l q) :
      Conv sv inb (⟨.isDone, false⟩ :: ⟨.recv, .timeout⟩ :: l) q
  | ignored {inb b : Bytes} {l : List REv} {q : Prog Unit} (hn : getMessage inb = .none) (h : Conv sv inb l q) :
      Conv sv inb (⟨.isDone, false⟩ :: ⟨.recv, .data b⟩ :: ⟨.isStopping, true⟩ :: l) q
  | read {inb b : Bytes} {l : List REv} {q : Prog Unit} (hn : getMessage inb = .none) (h : Conv sv (inb ++ b) l q) :
      Conv sv inb (⟨.isDone, false⟩ :: ⟨.recv, .data b⟩ :: ⟨.isStopping, false⟩ :: l) q
  | huge {inb : Bytes} (hn : getMessage inb = .panic) : Conv sv inb [] .panic
  | begin {inb m : Bytes} {q : Prog Unit} (hm : getMessage inb = .ready m) (hq : q ≠ .ret ()) : Conv sv inb [] q
  | serving {inb m : Bytes} {l : List REv} {x : Prog DRes} {q : Prog Unit} (hm : getMessage inb = .ready m)
      (hd : Own (dispatcher sv ⟨m⟩ m.length) l x) (hq : q ≠ .ret ()) (hx : (∃ v, x = .ret v) → ∃ k, q = .act .reqEnd k) : Conv sv inb (⟨.reqBegin m, ()⟩ :: l) q
  | rejected {inb m : Bytes} {l : List REv} (hm : getMessage inb = .ready m)
      (hd : Own (dispatcher sv ⟨m⟩ m.length) l (.ret .err)) : Conv sv inb (⟨.reqBegin m, ()⟩ :: (l ++ [⟨.reqEnd, ()⟩])) .panic
  | served {inb m : Bytes} {l l2 : List REv} {q : Prog Unit} (hm : getMessage inb = .ready m)
      (hd : Own (dispatcher sv ⟨m⟩ m.length) l (.ret .done)) (h : Conv sv (inb.drop (4 + m.length)) l2 q) :
      Conv sv inb (⟨.reqBegin m, ()⟩ :: (l ++ ⟨.reqEnd, ()⟩ :: l2)) q

theorem bind_ne_ret {α β : Type} {x : Prog α} {f : α → Prog β} {v : β} (hf : ∀ a, f a ≠ .ret v) : x.bind f ≠ .ret v := by
  cases x with
  | ret a => exact hf a
  | panic => exact fun h => by cases h
  | act => exact fun h => by cases h
  | loop => exact fun h => by cases h

theorem own_loop_inv {α σ β : Type} {s : σ} {body : σ → Prog (σ ⊕ β)} {k : β → Prog α} {l : List REv} {q : Prog α}
    (h : Own (.loop s body k) l q) : (q = .loop s body k ∧ l = []) ∨ Own (Prog.unroll s body k) l q := by
  cases h with
  | refl => exact .inl ⟨rfl, rfl⟩
  | unroll h => exact .inr h

theorem handle_conv {sv : Server} {inb : Bytes} {l : List REv} {q : Prog Unit} (h : Own (.loop inb (handleBody sv) .ret) l q) : Conv sv inb l q := by
  generalize hn : l.length = n
  induction n using Nat.strongRecOn generalizing l inb with
  | ind n ih =>
    rcases own_loop_inv h with ⟨rfl, rfl⟩ | h
    · exact .head inb
    · unfold Prog.unroll at h
      unfold handleBody at h
      cases hg : getMessage inb with
      | panic =>
        rw [hg] at h
        obtain ⟨rfl, rfl⟩ := own_panic_inv h
        exact .huge hg
      | none =>
        rw [hg] at h
        rcases own_act_inv h with ⟨rfl, rfl⟩ | ⟨d, l1, rfl, h1⟩
        · exact .part hg (.inl rfl) (fun h => by cases h) (by constructor <;> intro h <;> cases h) (fun h => by cases h)
        · cases d with
          | true =>
            rcases own_act_inv h1 with ⟨rfl, rfl⟩ | ⟨u, l2, rfl, h2⟩
            · exact .part hg (.inr (.inl ⟨_, rfl⟩)) (fun h => by cases h) (by constructor <;> intro h <;> cases h) (fun h => by cases h)
            · obtain ⟨hq, rfl⟩ := own_ret_inv h2
              exact .part hg (.inr (.inr (.inl rfl))) (fun _ => .inl rfl) (by constructor <;> intro h <;> cases h) (fun h => by rw [hq] at h; cases h)
          | false =>
            rcases own_act_inv h1 with ⟨rfl, rfl⟩ | ⟨r, l2, rfl, h2⟩
            · exact .part hg (.inr (.inl ⟨_, rfl⟩)) (fun h => by cases h) (by constructor <;> intro h <;> cases h) (fun h => by cases h)
            · cases r with
              | timeout => exact .timeout hg (ih _ (by simp only [List.length_cons] at hn; omega) h2 rfl)
              | closed =>
                obtain ⟨hq, rfl⟩ := own_ret_inv h2
                exact .part hg (.inr (.inr (.inr ⟨_, rfl⟩))) (fun _ => .inr rfl) ⟨fun _ => hq, (fun h => by cases h)⟩ (fun h => by rw [hq] at h; cases h)
              | failed =>
                obtain ⟨rfl, rfl⟩ := own_panic_inv h2
                exact .part hg (.inr (.inr (.inr ⟨_, rfl⟩))) (fun h => by cases h) ⟨(fun h => by cases h), fun _ => rfl⟩ fun _ => rfl
              | data b =>
                rcases own_act_inv h2 with ⟨rfl, rfl⟩ | ⟨s, l3, rfl, h3⟩
                · exact .part hg (.inr (.inr (.inr ⟨_, rfl⟩))) (fun h => by cases h) (by constructor <;> intro h <;> cases h) (fun h => by cases h)
                · cases s with
                  | true => exact .ignored hg (ih _ (by simp only [List.length_cons] at hn; omega) h3 rfl)
                  | false => exact .read hg (ih _ (by simp only [List.length_cons] at hn; omega) h3 rfl)
      | ready m =>
        rw [hg] at h
        rcases own_act_inv h with ⟨rfl, rfl⟩ | ⟨u, l1, rfl, h1⟩
        · exact .begin hg fun h => by cases h
        · dsimp only at h1
          rw [Prog.bind_assoc] at h1
          rcases own_bind_inv h1 with ⟨x, h2, rfl⟩ | ⟨l2, l3, res, h2, h3, rfl⟩
          · exact .serving hg h2 (bind_ne_ret fun _ h => by cases h) fun ⟨v, e⟩ => ⟨_, by rw [e]; rfl⟩
          · rcases own_act_inv h3 with ⟨rfl, rfl⟩ | ⟨u, l4, rfl, h4⟩
            · rw [List.append_nil]
              exact .serving hg h2 (fun h => by cases h) fun _ => ⟨_, rfl⟩
            · cases res with
              | err =>
                obtain ⟨rfl, rfl⟩ := own_panic_inv h4
                exact .rejected hg h2
              | done =>
                refine .served hg h2 (ih _ ?_ h4 rfl)
                simp only [List.length_cons, List.length_append] at hn; omega

end KM
