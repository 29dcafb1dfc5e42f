import Verif.Props.Codec
/-
C61: fields are read as the protocol defines, whatever bytes a client sends (not only those the mock's own encoder writes).
C62: null and empty arrays.
As in `Props/Codec.lean`, the bytes in question stand at offset `pre.length` of a message, with arbitrary bytes before and after.
-/
namespace KM.Props
open KM

/-- **C61**, BOOLEAN: 0 is false, every other byte is true; it is written as 0 or 1. -/
theorem C61_boolean (pre post : Bytes) (x : UInt8) (h : pre.length + 1 ≤ 4096) :
    peekBool ⟨pre ++ ([x] ++ post)⟩ pre.length = .ok (pre.length + 1) (decide (x ≠ 0)) ∧ encodeBool true = [1] ∧ encodeBool false = [0] := by
  refine ⟨?_, rfl, rfl⟩
  rw [peekBool, peekFixedData_at' (n := 1) (at_mk pre [x] post h) rfl]
  have : ∀ n < 256, (getBE [UInt8.ofNat n] != 0) = decide (UInt8.ofNat n ≠ 0) := by decide +kernel
  have := this x.toNat x.toNat_lt
  rw [UInt8.ofNat_toNat] at this
  simp only [Res.map_ok, List.take_succ_cons, List.take_zero, this]

example : peekBool ⟨[9] ++ ([2] ++ [7])⟩ 1 = .ok 2 true := by decide

/-- **C61**, FLOAT64 and UUID: the eight bytes are the bits of the number, most significant first; the sixteen bytes are the id. -/
theorem C61_float_uuid (pre b post : Bytes) (h : pre.length + b.length ≤ 4096) :
    (b.length = 8 → ∃ x, peekFloat64 ⟨pre ++ (b ++ post)⟩ pre.length = .ok (pre.length + 8) x ∧ x.toNat = Spec.be b) ∧
    (∀ hb : b.length = 16, peekObject .uuid ⟨pre ++ (b ++ post)⟩ pre.length = .ok (pre.length + 16) (some ⟨b, hb⟩)) := by
  have hat := at_mk pre b post h
  constructor
  · intro hb
    exact ⟨_, by rw [peekFloat64, peekFixedData_at' hat hb.symm]; rfl, ofNat_getBE_toNat b hb (by decide)⟩
  · intro hb
    simp only [peekObject, peekObjectWorker]
    rw [peekFixedData_at' hat hb.symm]
    simp only [Res.bind_ok, hb, dif_pos]

/-! ### Variable-length numbers -/

theorem byte_flag (x : UInt8) : (x &&& 0x80 == 0) = decide (x.toNat < 128) := by
  have : ∀ n < 256, (UInt8.ofNat n &&& 0x80 == 0) = decide ((UInt8.ofNat n).toNat < 128) := by decide +kernel
  simpa using this x.toNat x.toNat_lt

theorem byte_group (x : UInt8) : (x &&& 0x7F).toNat = x.toNat % 128 := by
  have : ∀ n < 256, (UInt8.ofNat n &&& 0x7F).toNat = (UInt8.ofNat n).toNat % 128 := by decide +kernel
  simpa using this x.toNat x.toNat_lt

theorem or_shift {w : Nat} (hw : 7 ≤ w) (acc : BitVec w) (x shift : Nat) (hx : x < 128) (hacc : acc.toNat < 2 ^ shift) :
    (acc ||| (BitVec.ofNat w x <<< shift)).toNat = (acc.toNat + x * 2 ^ shift) % 2 ^ w ∧
      (acc ||| (BitVec.ofNat w x <<< shift)).toNat < 2 ^ (shift + 7) := by
  have hxw : x < 2 ^ w := Nat.lt_of_lt_of_le hx (Nat.le_trans (by decide : 128 ≤ 2 ^ 7) (Nat.pow_le_pow_right (by decide) hw))
  have h1 : (acc ||| (BitVec.ofNat w x <<< shift)).toNat = acc.toNat + (x * 2 ^ shift) % 2 ^ w := by
    rw [BitVec.toNat_or, BitVec.toNat_shiftLeft, BitVec.toNat_ofNat, Nat.mod_eq_of_lt hxw, Nat.shiftLeft_eq]
    by_cases hs : shift ≤ w
    · have : x * 2 ^ shift % 2 ^ w = (x % 2 ^ (w - shift)) <<< shift := by
        rw [Nat.shiftLeft_eq, show 2 ^ w = 2 ^ (w - shift) * 2 ^ shift by rw [← Nat.pow_add]; congr 1; omega, Nat.mul_mod_mul_right]
      rw [this, Nat.or_comm, ← Nat.shiftLeft_add_eq_or_of_lt hacc, Nat.add_comm]
    · have : x * 2 ^ shift % 2 ^ w = 0 := by
        rw [show 2 ^ shift = 2 ^ (shift - w) * 2 ^ w by rw [← Nat.pow_add]; congr 1; omega, ← Nat.mul_assoc, Nat.mul_mod_left]
      rw [this, Nat.or_zero, Nat.add_zero]
  have h2 := (acc ||| (BitVec.ofNat w x <<< shift)).isLt
  refine ⟨?_, ?_⟩
  · rw [← Nat.mod_eq_of_lt h2, h1, Nat.add_mod_mod]
  · rw [h1, Nat.pow_add]
    have := Nat.mod_le (x * 2 ^ shift) (2 ^ w)
    have : x * 2 ^ shift ≤ 127 * 2 ^ shift := Nat.mul_le_mul_right _ (by omega)
    omega

theorem loop_terminated {w : Nat} (hw : 7 ≤ w) (init : Bytes) (last : UInt8) (hi : ∀ x ∈ init, 128 ≤ x.toNat) (hl : last.toNat < 128) (pre post : Bytes)
    (shift : Nat) (acc : BitVec w) (hacc : acc.toNat < 2 ^ shift) :
    ∃ u : BitVec w, peekVarULoop (pre ++ (init ++ last :: post)) pre.length shift acc = .ok (pre.length + init.length + 1) u ∧
      u.toNat = (acc.toNat + Spec.leb128 (init ++ [last]) * 2 ^ shift) % 2 ^ w := by
  induction init generalizing pre shift acc with
  | nil =>
    rw [List.nil_append, peekVarULoop_cons, byte_flag, byte_group, decide_eq_true hl, if_pos rfl]
    refine ⟨_, rfl, ?_⟩
    rw [(or_shift hw acc _ shift (Nat.mod_lt _ (by decide)) hacc).1]
    simp [Spec.leb128]
  | cons x init ih =>
    have hx := hi x List.mem_cons_self
    rw [List.cons_append, peekVarULoop_cons, byte_flag, byte_group, decide_eq_false (by omega), if_neg (by decide)]
    obtain ⟨o1, o2⟩ := or_shift hw acc (x.toNat % 128) shift (Nat.mod_lt _ (by decide)) hacc
    obtain ⟨u, h1, h2⟩ := ih (fun y hy => hi y (List.mem_cons_of_mem _ hy)) (pre ++ [x]) (shift + 7) _ o2
    rw [show pre ++ x :: (init ++ last :: post) = pre ++ [x] ++ (init ++ last :: post) by simp, show pre.length + 1 = (pre ++ [x]).length by simp]
    refine ⟨u, by rw [h1]; simp; omega, ?_⟩
    rw [h2, o1, Nat.mod_add_mod, List.cons_append, Spec.leb128, Nat.add_mul, Nat.add_assoc, Nat.pow_add]
    congr 3
    rw [Nat.mul_comm 128, Nat.mul_assoc, Nat.mul_comm (2 ^ shift)]

theorem loop_unterminated {w : Nat} (b : Bytes) (hb : ∀ x ∈ b, 128 ≤ x.toNat) (pre : Bytes) (shift : Nat) (acc : BitVec w) :
    peekVarULoop (pre ++ b) pre.length shift acc = .short := by
  induction b generalizing pre shift acc with
  | nil => rw [List.append_nil, peekVarULoop, dif_neg (by omega)]
  | cons x b ih =>
    rw [peekVarULoop_cons, byte_flag, decide_eq_false (by have := hb x List.mem_cons_self; omega), if_neg (by decide)]
    have := ih (fun y hy => hb y (List.mem_cons_of_mem _ hy)) (pre ++ [x]) (shift + 7) (acc ||| BitVec.ofNat w (x &&& 127).toNat <<< shift)
    rw [List.append_assoc, List.length_append] at this
    exact this

/-- What `Peek` shows around bytes inside the window. -/
theorem peek_around (pre b post : Bytes) (n : Nat) (hn : b.length ≤ n) (h : pre.length + b.length ≤ 4096) :
    ∃ post', (Reader.peek ⟨pre ++ (b ++ post)⟩ (pre.length + n)).1 = pre ++ (b ++ post') := by
  obtain ⟨pre', post', h1, h2⟩ := at_mk pre b post h
  rw [Reader.peek_eq, h1]
  have hp : pre' = pre := by
    have h3 : (⟨pre ++ (b ++ post)⟩ : Reader).window.take pre.length = pre := by
      simp only [Reader.window, defaultBufSize]
      rw [List.take_take, Nat.min_eq_left (by omega), List.take_left]
    rw [h1, ← h2, List.take_left] at h3
    exact h3
  subst hp
  refine ⟨post'.take (n - b.length), ?_⟩
  dsimp only
  rw [List.take_append, List.take_of_length_le (by omega), List.take_append, List.take_of_length_le (by omega)]
  congr 3; omega

/-- **C61**, UNSIGNED VARINT of 32 and 64 bits: up to five (ten) bytes of which exactly the last has bit 7 clear are the number they denote in base 128, modulo
2^32 (2^64), also when a shorter form exists; five (ten) bytes that all have bit 7 set are treated as an incomplete number. -/
theorem C61_varuint (pre b post : Bytes) (h : pre.length + b.length ≤ 4096) :
    (Spec.Terminated b → b.length ≤ 5 → ∃ x, peekVarUint ⟨pre ++ (b ++ post)⟩ pre.length = .ok (pre.length + b.length) x ∧ x.toNat = Spec.leb128 b % 2 ^ 32) ∧
    (Spec.Terminated b → b.length ≤ 10 → ∃ x, peekVarUint64 ⟨pre ++ (b ++ post)⟩ pre.length = .ok (pre.length + b.length) x ∧ x.toNat = Spec.leb128 b % 2 ^ 64) ∧
    ((∀ x ∈ b, 128 ≤ x.toNat) → b.length = 5 → peekVarUint ⟨pre ++ (b ++ post)⟩ pre.length = .short) ∧
    ((∀ x ∈ b, 128 ≤ x.toNat) → b.length = 10 → peekVarUint64 ⟨pre ++ (b ++ post)⟩ pre.length = .short) := by
  have ok : ∀ (w n : Nat), 7 ≤ w → Spec.Terminated b → b.length ≤ n → ∃ x : BitVec w,
      peekVarULoop (Reader.peek ⟨pre ++ (b ++ post)⟩ (pre.length + n)).1 pre.length 0 0 = .ok (pre.length + b.length) x ∧ x.toNat = Spec.leb128 b % 2 ^ w := by
    intro w n hw ht hn
    obtain ⟨post', hp⟩ := peek_around pre b post n hn h
    obtain ⟨init, last, rfl, hi, hl⟩ := ht
    rw [hp, List.append_assoc]
    obtain ⟨u, h1, h2⟩ := loop_terminated hw init last hi hl pre post' 0 0 (by simp)
    refine ⟨u, by simpa [Nat.add_assoc] using h1, by simpa using h2⟩
  have no : ∀ (w n : Nat), (∀ x ∈ b, 128 ≤ x.toNat) → b.length = n →
      peekVarULoop (w := w) (Reader.peek ⟨pre ++ (b ++ post)⟩ (pre.length + n)).1 pre.length 0 0 = .short := by
    intro w n hb hn
    obtain ⟨post', hp⟩ := peek_around pre b post n (by omega) h
    have hl : (Reader.peek ⟨pre ++ (b ++ post)⟩ (pre.length + n)).1.length ≤ pre.length + n := by
      rw [Reader.peek_eq]; simp; omega
    rw [hp] at hl ⊢
    have : post' = [] := List.length_eq_zero_iff.1 (by simp at hl; omega)
    rw [this, List.append_nil]
    exact loop_unterminated b hb pre 0 0
  exact ⟨ok 32 5 (by decide), ok 64 10 (by decide), no 32 5, no 64 10⟩

example : Spec.Terminated [0x83, 0x80, 0x00] ∧ Spec.leb128 [0x83, 0x80, 0x00] = 3 :=
  ⟨⟨[0x83, 0x80], 0, rfl, by decide, by decide⟩, by decide⟩

/-- The number that zigzag maps to `n`. -/
def unzig (n : Nat) : Int := if n % 2 = 0 then (n / 2 : Nat) else -((n / 2 : Nat) : Int) - 1

theorem zigzag_unzig (n : Nat) : Spec.zigzag (unzig n) = n := by
  unfold unzig Spec.zigzag
  split <;> split <;> omega

theorem unzigzag_toInt {w : Nat} (hw : 1 < w) (u : BitVec w) : Spec.zigzag (unzigzag u).toInt = u.toNat := by
  have hu := u.isLt
  have h2 : 2 ^ w = 2 * 2 ^ (w - 1) := by
    obtain ⟨k, rfl⟩ : ∃ k, w = k + 1 := ⟨w - 1, by omega⟩
    rw [Nat.add_sub_cancel, Nat.pow_succ, Nat.mul_comm]
  have hv : (BitVec.ofInt w (unzig u.toNat)).toInt = unzig u.toNat := by
    apply BitVec.toInt_ofInt_eq_self (by omega)
    · have : (2 : Int) ^ (w - 1) = ((2 ^ (w - 1) : Nat) : Int) := by push_cast; rfl
      rw [this]
      unfold unzig; split <;> omega
    · have : (2 : Int) ^ (w - 1) = ((2 ^ (w - 1) : Nat) : Int) := by push_cast; rfl
      rw [this]
      unfold unzig; split <;> omega
  have hz : zigzag (BitVec.ofInt w (unzig u.toNat)) = u := by
    apply BitVec.eq_of_toNat_eq
    rw [zigzag_toNat hw, hv, zigzag_unzig]
  rw [← hz, unzigzag_zigzag hw, hv, hz, zigzag_unzig]

/-- **C61**, VARINT and VARLONG: the same bytes are the number whose zigzag image they denote. -/
theorem C61_varint (pre b post : Bytes) (h : pre.length + b.length ≤ 4096) (ht : Spec.Terminated b) :
    (b.length ≤ 5 → ∃ x, peekVarInt ⟨pre ++ (b ++ post)⟩ pre.length = .ok (pre.length + b.length) x ∧ Spec.zigzag x.toInt = Spec.leb128 b % 2 ^ 32) ∧
    (b.length ≤ 10 → ∃ x, peekVarInt64 ⟨pre ++ (b ++ post)⟩ pre.length = .ok (pre.length + b.length) x ∧ Spec.zigzag x.toInt = Spec.leb128 b % 2 ^ 64) := by
  constructor
  · intro hl
    obtain ⟨x, h1, h2⟩ := (C61_varuint pre b post h).1 ht hl
    exact ⟨unzigzag x, by rw [peekVarInt, h1]; rfl, by rw [unzigzag_toInt (by decide), h2]⟩
  · intro hl
    obtain ⟨x, h1, h2⟩ := (C61_varuint pre b post h).2.1 ht hl
    exact ⟨unzigzag x, by rw [peekVarInt64, h1]; rfl, by rw [unzigzag_toInt (by decide), h2]⟩

/-! ### Null -/

/-- **C61**, null: every negative length, not only -1, is null for strings, bytes and arrays; for a plain string it is the empty string. -/
theorem C61_negative_length (pre b post : Bytes) (h : pre.length + b.length ≤ 4096) :
    (b.length = 2 → Spec.signed 16 (Spec.be b) < 0 →
      peekNullableString ⟨pre ++ (b ++ post)⟩ pre.length = .ok (pre.length + 2) none ∧ peekString ⟨pre ++ (b ++ post)⟩ pre.length = .ok (pre.length + 2) []) ∧
    (b.length = 4 → Spec.signed 32 (Spec.be b) < 0 →
      peekNullableBytes ⟨pre ++ (b ++ post)⟩ pre.length = .ok (pre.length + 4) none ∧
      ∀ e, peekObject (.slice e) ⟨pre ++ (b ++ post)⟩ pre.length = .ok (pre.length + 4) none) := by
  obtain ⟨_, r16, r32, _⟩ := C05_read_big_endian pre b post h
  constructor
  · intro hb hn
    obtain ⟨n, h1, h2⟩ := r16 hb
    rw [← h2] at hn
    generalize (⟨pre ++ (b ++ post)⟩ : Reader) = r at h1 ⊢
    have h2 : peekNullableData16 r pre.length = .ok (pre.length + 2) none := by
      rw [peekNullableData16_eq, h1]; simp [hn]
    exact ⟨h2, by simp [peekString, peekObject, peekObjectWorker, peekNullableString, h2]⟩
  · intro hb hn
    obtain ⟨n, h1, h2⟩ := r32 hb
    rw [← h2] at hn
    generalize (⟨pre ++ (b ++ post)⟩ : Reader) = r at h1 ⊢
    refine ⟨by rw [peekNullableBytes_eq, h1]; simp [hn], fun e => ?_⟩
    simp only [peekObject, peekObjectWorker, Bool.false_eq_true, if_false, peekObjectVarArray, h1, Res.bind_ok, peekObjectFixedArray]
    rw [if_neg (by omega)]
    rfl

example : Spec.signed 16 (Spec.be [255, 249]) = -7 ∧ peekString ⟨[9] ++ ([255, 249] ++ [1, 2])⟩ 1 = .ok 3 [] := by decide

/-! ### Compact lengths -/

/-- A COMPACT_STRING: the length plus one as UNSIGNED VARINT, then the bytes (for strings of less than 127 bytes the number is one byte). -/
def compactStr (s : Bytes) : Bytes := UInt8.ofNat (s.length + 1) :: s

/-- The full statement of C61 is false for compact types: the mock writes and reads their lengths with zigzag. It writes "hi" with the length byte 6 instead of
3, and reads the protocol's form of "hi" as the empty string, and of "h" as the empty string that ends before the "h". -/
theorem C61_false : encodeObject .compactString [104, 105] = some [6, 104, 105] ∧ compactStr [104, 105] = [3, 104, 105] ∧
    peekObject .compactString ⟨compactStr [104, 105]⟩ 0 = .ok 1 (some []) ∧
    peekObject .compactString ⟨compactStr [104]⟩ 0 = .ok 1 (some []) := by
  have z3 : encodeVarInt 3 = [6] := encodeVarInt_small 3 (by decide)
  have zm : encodeVarInt (-2) = [3] := encodeVarInt_small (-2) (by decide)
  have z1 : encodeVarInt 1 = [2] := encodeVarInt_small 1 (by decide)
  refine ⟨?_, rfl, ?_, ?_⟩
  · rw [show ([6, 104, 105] : Bytes) = [6] ++ [104, 105] from rfl, ← z3]; rfl
  · have h1 := peekVarInt_at (v := -2) (by rw [zm]; exact at_mk [] [3] [104, 105] (by decide))
    rw [zm] at h1
    simp only [peekObject, peekObjectWorker, peekCompactNullableString, peekCompactNullableBytes]
    rw [show (⟨compactStr [104, 105]⟩ : Reader) = ⟨[] ++ ([3] ++ [104, 105])⟩ from rfl, show (0 : Nat) = ([] : Bytes).length from rfl, h1]
    decide
  · have h1 := peekVarInt_at (v := 1) (by rw [z1]; exact at_mk [] [2] [104] (by decide))
    rw [z1] at h1
    simp only [peekObject, peekObjectWorker, peekCompactNullableString, peekCompactNullableBytes]
    rw [show (⟨compactStr [104]⟩ : Reader) = ⟨[] ++ ([2] ++ [104])⟩ from rfl, show (0 : Nat) = ([] : Bytes).length from rfl, h1]
    decide

/-! ### C62 -/

/-- **C62** A null array and an empty array are written differently, with lengths -1 and 0 (compact: the numbers 0 and, because of zigzag, 2), and read back as
null and as empty in any context, whatever the element type. Missing for the full statement: null arrays in structs, which are not read back (`C62_false`). -/
theorem C62_null_vs_empty_array_partial (e : Ty) :
    encodeObject (.slice e) none = some [255, 255, 255, 255] ∧ encodeObject (.slice e) (some []) = some [0, 0, 0, 0] ∧
    encodeObjectWorker (.slice e) none false true = some [0] ∧ encodeObjectWorker (.slice e) (some []) false true = some [2] ∧
    ∀ pre post : Bytes, pre.length + 4 ≤ 4096 →
      peekObject (.slice e) ⟨pre ++ ([255, 255, 255, 255] ++ post)⟩ pre.length = .ok (pre.length + 4) none ∧
      peekObject (.slice e) ⟨pre ++ ([0, 0, 0, 0] ++ post)⟩ pre.length = .ok (pre.length + 4) (some (some [])) ∧
      peekObjectWorker (.slice e) ⟨pre ++ ([0] ++ post)⟩ pre.length false true = .ok (pre.length + 1) none ∧
      peekObjectWorker (.slice e) ⟨pre ++ ([2] ++ post)⟩ pre.length false true = .ok (pre.length + 1) (some (some [])) := by
  have z0 : encodeVarInt 0#32 = [0] := encodeVarInt_small 0 (by decide)
  have z1 : encodeVarInt 1#32 = [2] := encodeVarInt_small 1 (by decide)
  refine ⟨rfl, by simp [encodeObject, encodeObjectWorker, encodeItems]; rfl, by simp [encodeObjectWorker, z0], by simp [encodeObjectWorker, encodeItems, z1], fun pre post h => ⟨C09_partial e pre post h, ?_, ?_, ?_⟩⟩
  · have hat := at_mk pre [0, 0, 0, 0] post (by simpa using h)
    generalize (⟨pre ++ ([0, 0, 0, 0] ++ post)⟩ : Reader) = r at hat ⊢
    have h1 : peekInt32 r pre.length = .ok (pre.length + 4) 0 := peekInt32_at hat
    simp [peekObject, peekObjectWorker, peekObjectVarArray, h1, peekObjectFixedArray, peekItems]
  · have hat := at_mk pre [0] post (by simp; omega)
    generalize (⟨pre ++ ([0] ++ post)⟩ : Reader) = r at hat ⊢
    have h1 := peekVarInt_at (v := 0#32) (by rw [z0]; exact hat)
    simp [peekObjectWorker, peekObjectCompactVarArray, h1, z0]
  · have hat := at_mk pre [2] post (by simp; omega)
    generalize (⟨pre ++ ([2] ++ post)⟩ : Reader) = r at hat ⊢
    have h1 := peekVarInt_at (v := 1#32) (by rw [z1]; exact hat)
    simp [peekObjectWorker, peekObjectCompactVarArray, h1, z1, peekObjectFixedArray, peekItems]

/-- **C62** is false of the fields of a struct: a nil slice is written, and reading it panics; an empty one is read back. -/
theorem C62_false : encodeStruct (.cons "a" [] (.slice .int16) .nil) (none, ()) = some [255, 255, 255, 255] ∧
    peekObjectStruct (.cons "a" [] (.slice .int16) .nil) ⟨[255, 255, 255, 255]⟩ 0 = .panic ∧
    encodeStruct (.cons "a" [] (.slice .int16) .nil) (some [], ()) = some [0, 0, 0, 0] ∧
    peekObjectStruct (.cons "a" [] (.slice .int16) .nil) ⟨[0, 0, 0, 0]⟩ 0 = .ok 4 (some [], ()) := by
  refine ⟨by decide, C09_null_array_in_struct_panics "a" .int16 .nil [] [] (by decide), by decide, by decide +kernel⟩

example : encodeObject (.slice .int16) (some [7]) = some [0, 0, 0, 1, 0, 7] := by decide

end KM.Props
