import Verif.Codec.Locality
import Verif.Codec.Domain
/-! Round trip of the codec: decoding what was encoded, in any context inside the peek window. -/
namespace KM

/-- The bytes `b` stand at offset `off` of what the reader can peek. -/
def At (r : Reader) (off : Nat) (b : Bytes) : Prop :=
  ∃ pre post, r.window = pre ++ (b ++ post) ∧ pre.length = off

theorem At.append {r : Reader} {off : Nat} {a b : Bytes} (h : At r off (a ++ b)) :
    At r off a ∧ At r (off + a.length) b := by
  obtain ⟨pre, post, h, rfl⟩ := h
  exact ⟨⟨pre, b ++ post, by rw [h, List.append_assoc], rfl⟩,
    ⟨pre ++ a, post, by rw [h]; simp, by simp⟩⟩

theorem At.take_drop {r : Reader} {off : Nat} {b : Bytes} (h : At r off b) :
    (r.window.take (off + b.length)).drop off = b ∧ off + b.length ≤ r.window.length := by
  obtain ⟨pre, post, h, rfl⟩ := h
  rw [h]
  refine ⟨?_, by simp⟩
  rw [← List.append_assoc, show pre.length + b.length = (pre ++ b).length by simp, List.take_left,
    List.drop_left]

theorem peekFixedData_at {r : Reader} {off : Nat} {b : Bytes} (h : At r off b) :
    peekFixedData r off b.length = .ok (off + b.length) b := by
  obtain ⟨h1, h2⟩ := h.take_drop
  simp only [peekFixedData, Reader.peek_eq, decide_eq_true_eq]
  rw [if_neg (by omega), h1]

theorem peekFixedData_at' {r : Reader} {off n : Nat} {b : Bytes} (h : At r off b) (hn : n = b.length) :
    peekFixedData r off n = .ok (off + n) b := by
  subst hn; exact peekFixedData_at h

theorem peekInt16_at {r : Reader} {off : Nat} {v : I16} (h : At r off (encodeInt16 v)) :
    peekInt16 r off = .ok (off + 2) v := by
  rw [peekInt16, peekFixedData_at' (n := 2) h (by simp [encodeInt16])]
  simp only [Res.map_ok, encodeInt16]
  rw [List.take_of_length_le (by simp), getBE_putBE_of_lt (by simpa using v.isLt)]
  simp

theorem peekUint16_at {r : Reader} {off : Nat} {v : BitVec 16} (h : At r off (encodeUint16 v)) :
    peekUint16 r off = .ok (off + 2) v := peekInt16_at h

theorem peekInt32_at {r : Reader} {off : Nat} {v : I32} (h : At r off (encodeInt32 v)) :
    peekInt32 r off = .ok (off + 4) v := by
  rw [peekInt32, peekFixedData_at' (n := 4) h (by simp [encodeInt32])]
  simp only [Res.map_ok, encodeInt32]
  rw [List.take_of_length_le (by simp), getBE_putBE_of_lt (by simpa using v.isLt)]
  simp

theorem peekUint32_at {r : Reader} {off : Nat} {v : BitVec 32} (h : At r off (encodeUint32 v)) :
    peekUint32 r off = .ok (off + 4) v := peekInt32_at h

theorem peekInt64_at {r : Reader} {off : Nat} {v : I64} (h : At r off (encodeInt64 v)) :
    peekInt64 r off = .ok (off + 8) v := by
  rw [peekInt64, peekFixedData_at' (n := 8) h (by simp [encodeInt64])]
  simp only [Res.map_ok, encodeInt64]
  rw [List.take_of_length_le (by simp), getBE_putBE_of_lt (by simpa using v.isLt)]
  simp

theorem peekUint64_at {r : Reader} {off : Nat} {v : BitVec 64} (h : At r off (encodeUint64 v)) :
    peekUint64 r off = .ok (off + 8) v := peekInt64_at h

theorem peekFloat64_at {r : Reader} {off : Nat} {v : BitVec 64} (h : At r off (encodeFloat64 v)) :
    peekFloat64 r off = .ok (off + 8) v := peekInt64_at h

theorem peekUint8_at {r : Reader} {off : Nat} {v : UInt8} (h : At r off [v]) :
    peekUint8 r off = .ok (off + 1) v := by
  rw [peekUint8, peekFixedData_at' (n := 1) h (by simp)]
  simp [getBE_cons]

theorem peekInt8_at {r : Reader} {off : Nat} {v : I8} (h : At r off (encodeInt8 v)) :
    peekInt8 r off = .ok (off + 1) v := by
  rw [peekInt8, peekFixedData_at' (n := 1) h (by simp [encodeInt8])]
  simp only [Res.map_ok, encodeInt8]
  have := v.isLt
  simp [getBE_cons]

theorem peekBool_at {r : Reader} {off : Nat} {v : Bool} (h : At r off (encodeBool v)) :
    peekBool r off = .ok (off + 1) v := by
  rw [peekBool, peekFixedData_at' (n := 1) h (by cases v <;> simp [encodeBool])]
  cases v <;> simp [encodeBool, getBE_cons]

theorem peekVarUint_at {r : Reader} {off : Nat} {v : BitVec 32} (h : At r off (encodeVarUint v)) :
    peekVarUint r off = .ok (off + (encodeVarUint v).length) v := by
  obtain ⟨pre, post, h, rfl⟩ := h; exact peekVarUint_make v h
theorem peekVarUint64_at {r : Reader} {off : Nat} {v : BitVec 64} (h : At r off (encodeVarUint64 v)) :
    peekVarUint64 r off = .ok (off + (encodeVarUint64 v).length) v := by
  obtain ⟨pre, post, h, rfl⟩ := h; exact peekVarUint64_make v h
theorem peekVarInt_at {r : Reader} {off : Nat} {v : BitVec 32} (h : At r off (encodeVarInt v)) :
    peekVarInt r off = .ok (off + (encodeVarInt v).length) v := by
  obtain ⟨pre, post, h, rfl⟩ := h; exact peekVarInt_make v h
theorem peekVarInt64_at {r : Reader} {off : Nat} {v : BitVec 64} (h : At r off (encodeVarInt64 v)) :
    peekVarInt64 r off = .ok (off + (encodeVarInt64 v).length) v := by
  obtain ⟨pre, post, h, rfl⟩ := h; exact peekVarInt64_make v h

theorem toInt_ofNat_small (w n : Nat) (hw : 0 < w) (h : n < 2 ^ (w - 1)) : (BitVec.ofNat w n).toInt = (n : Int) := by
  have h2 : 2 ^ w = 2 * 2 ^ (w - 1) := by
    obtain ⟨k, rfl⟩ : ∃ k, w = k + 1 := ⟨w - 1, by omega⟩
    rw [Nat.add_sub_cancel, show 2 ^ (k + 1) = 2 ^ k * 2 from Nat.pow_succ _ _, Nat.mul_comm]
  rw [BitVec.toInt_eq_toNat_cond, BitVec.toNat_ofNat, Nat.mod_eq_of_lt (by omega), if_pos (by omega)]

theorem peekNullableData16_at {r : Reader} {off : Nat} {v : Option Bytes}
    (hv : ∀ s, v = some s → s.length < 2 ^ 15) (h : At r off (encodeNullableString v)) :
    peekNullableData16 r off = .ok (off + (encodeNullableString v).length) v := by
  rw [peekNullableData16_eq]
  cases v with
  | none =>
    simp only [encodeNullableString] at h ⊢
    rw [peekInt16_at h]
    simp [encodeInt16]
  | some s =>
    simp only [encodeNullableString] at h ⊢
    obtain ⟨h1, h2⟩ := h.append
    have hs := hv s rfl
    rw [peekInt16_at h1]
    simp only [Res.bind_ok]
    rw [toInt_ofNat_small 16 s.length (by decide) hs, if_neg (by omega), Int.toNat_natCast,
      peekFixedData_at (by simpa [encodeInt16] using h2)]
    simp [encodeInt16]; omega

theorem peekCompactNullableBytes_at {r : Reader} {off : Nat} {v : Option Bytes}
    (hv : ∀ s, v = some s → s.length + 1 < 2 ^ 31) (h : At r off (encodeCompactNullableBytes v)) :
    peekCompactNullableBytes r off = .ok (off + (encodeCompactNullableBytes v).length) v := by
  rw [peekCompactNullableBytes_eq]
  cases v with
  | none =>
    simp only [encodeCompactNullableBytes] at h ⊢
    rw [peekVarInt_at h]
    simp
  | some s =>
    simp only [encodeCompactNullableBytes] at h ⊢
    obtain ⟨h1, h2⟩ := h.append
    have hs := hv s rfl
    rw [peekVarInt_at h1]
    simp only [Res.bind_ok]
    rw [toInt_ofNat_small 32 (s.length + 1) (by decide) hs, if_neg (by omega),
      show ((s.length + 1 : Nat) : Int) - 1 = (s.length : Int) by omega, Int.toNat_natCast, peekFixedData_at h2]
    simp; omega

theorem encodeCompactNullableString_eq (v : Option Bytes) :
    encodeCompactNullableString v = encodeCompactNullableBytes v := by cases v <;> rfl

theorem peekNullableBytes_at {r : Reader} {off : Nat} {v : Option Bytes}
    (hv : ∀ s, v = some s → s.length < 2 ^ 31) (h : At r off (encodeNullableBytes v)) :
    peekNullableBytes r off = .ok (off + (encodeNullableBytes v).length) v := by
  rw [peekNullableBytes_eq]
  cases v with
  | none =>
    simp only [encodeNullableBytes] at h ⊢
    rw [peekInt32_at h]
    simp [encodeInt32]
  | some s =>
    simp only [encodeNullableBytes] at h ⊢
    obtain ⟨h1, h2⟩ := h.append
    have hs := hv s rfl
    rw [peekInt32_at h1]
    simp only [Res.bind_ok]
    rw [toInt_ofNat_small 32 s.length (by decide) hs, if_neg (by omega), Int.toNat_natCast,
      peekFixedData_at (by simpa [encodeUint32] using h2)]
    simp [encodeUint32]; omega

theorem peekItems_at {α : Type} {r : Reader} (enc : α → Option Bytes) (dec : Nat → Res (Option α)) (xs : List α)
    (hrt : ∀ x ∈ xs, ∀ b, enc x = some b → ∀ o, At r o b → dec o = .ok (o + b.length) (some x))
    {off : Nat} {b : Bytes} (he : encodeItems enc xs = some b) (h : At r off b) :
    peekItems dec true xs.length off = .ok (off + b.length) xs := by
  induction xs generalizing off b with
  | nil => simp only [encodeItems, Option.some.injEq] at he; subst he; simp [peekItems]
  | cons x xs ih =>
    simp only [encodeItems, Option.pure_def, Option.bind_eq_bind, Option.bind_eq_some_iff] at he
    obtain ⟨b1, he1, b2, he2, he3⟩ := he
    injection he3 with he3; subst he3
    obtain ⟨h1, h2⟩ := h.append
    simp only [List.length_cons, peekItems]
    rw [hrt x (by simp) b1 he1 off h1]
    simp only [Res.bind_ok, if_true]
    rw [ih (fun y hy => hrt y (by simp [hy])) he2 h2]
    simp; omega

theorem encodeItems_bytes (b : Bytes) : encodeItems (fun x : UInt8 => some (encodeUint8 x)) b = some b := by
  induction b with
  | nil => rfl
  | cons x xs ih => rw [encodeItems, ih]; rfl

theorem peekObjectVarArray_at {α : Type} {r : Reader} (enc : α → Option Bytes) (dec : Nat → Res (Option α))
    (xs : List α) (hrt : ∀ x ∈ xs, ∀ b, enc x = some b → ∀ o, At r o b → dec o = .ok (o + b.length) (some x))
    {off : Nat} {b : Bytes} (he : encodeItems enc xs = some b) (hl : xs.length < 2 ^ 31)
    (h : At r off (encodeInt32 (BitVec.ofNat 32 xs.length) ++ b)) :
    peekObjectVarArray dec true r off
      = .ok (off + (encodeInt32 (BitVec.ofNat 32 xs.length) ++ b).length) (some xs) := by
  obtain ⟨h1, h2⟩ := h.append
  rw [peekObjectVarArray, peekInt32_at h1]
  simp only [Res.bind_ok]
  rw [toInt_ofNat_small 32 xs.length (by decide) hl, peekObjectFixedArray, if_pos (by omega), Int.toNat_natCast,
    peekItems_at enc dec xs hrt he (by simpa [encodeInt32] using h2)]
  simp [encodeInt32]; omega

theorem ofNat32_succ_sub (n : Nat) : BitVec.ofNat 32 n + 1 - 1 = BitVec.ofNat 32 n := by
  rw [BitVec.add_sub_cancel]

theorem peekObjectCompactVarArray_at {α : Type} {r : Reader} (enc : α → Option Bytes) (dec : Nat → Res (Option α))
    (xs : List α) (hrt : ∀ x ∈ xs, ∀ b, enc x = some b → ∀ o, At r o b → dec o = .ok (o + b.length) (some x))
    {off : Nat} {b : Bytes} (he : encodeItems enc xs = some b) (hl : xs.length + 1 < 2 ^ 31)
    (h : At r off (encodeVarInt (BitVec.ofNat 32 xs.length + 1) ++ b)) :
    peekObjectCompactVarArray dec true r off
      = .ok (off + (encodeVarInt (BitVec.ofNat 32 xs.length + 1) ++ b).length) (some xs) := by
  obtain ⟨h1, h2⟩ := h.append
  rw [peekObjectCompactVarArray, peekVarInt_at h1]
  simp only [Res.bind_ok]
  have hne : ¬ (BitVec.ofNat 32 xs.length + 1 = 0) := by
    intro hc
    have := congrArg BitVec.toNat hc
    simp at this
    omega
  rw [if_neg hne, ofNat32_succ_sub, toInt_ofNat_small 32 xs.length (by decide) (by omega), peekObjectFixedArray,
    if_pos (by omega), Int.toNat_natCast, peekItems_at enc dec xs hrt he h2]
  simp; omega

theorem int_roundtrip (v : BitVec 64) (h1 : -2 ^ 31 ≤ v.toInt) (h2 : v.toInt < 2 ^ 31) :
    (v.setWidth 32).signExtend 64 = v := by
  apply BitVec.eq_of_toInt_eq
  rw [BitVec.toInt_signExtend, BitVec.toInt_setWidth]
  simp only [Nat.min_def]
  have e : (v.toNat : Int).bmod (2 ^ 32) = v.toInt := by
    rw [BitVec.toInt_eq_toNat_bmod] at h1 h2 ⊢
    have h := v.isLt
    simp only [Int.bmod_def] at *
    split at h1 <;> split <;> omega
  simp [Int.bmod_def] at e ⊢
  omega

theorem uint_roundtrip (v : BitVec 64) (h : v.toNat < 2 ^ 32) : (v.setWidth 32).setWidth 64 = v := by
  apply BitVec.eq_of_toNat_eq
  simp; omega

theorem encodeItems_some {α : Type} (f : α → Option Bytes) (xs : List α) (h : ∀ x ∈ xs, ∃ b, f x = some b) :
    ∃ b, encodeItems f xs = some b := by
  induction xs with
  | nil => exact ⟨[], rfl⟩
  | cons x xs ih =>
    obtain ⟨b, hb⟩ := h x (by simp)
    obtain ⟨bs, hbs⟩ := ih (fun y hy => h y (by simp [hy]))
    exact ⟨b ++ bs, by simp [encodeItems, hb, hbs]⟩

theorem InSync_assignable (t : Ty) (n c : Bool) (h : t.InSync n c = true) : t.assignable = true := by
  cases t <;> simp_all [Ty.InSync, Ty.assignable]

/-- What round-tripping means for one encoded value. -/
def Decodes {α : Type} (dec : Reader → Nat → Res α) (b : Bytes) (v : α) : Prop :=
  ∀ r off, At r off b → dec r off = .ok (off + b.length) v

mutual
theorem roundtrip : (t : Ty) → (v : t.den) → (n c : Bool) → t.InSync n c = true → t.Fits v →
    ∃ b, encodeObjectWorker t v n c = some b ∧ Decodes (fun r off => peekObjectWorker t r off n c) b (some v)
  | .bool, v, _, _, _, _ => ⟨encodeBool v, by rw [encodeObjectWorker], fun r off h => by
      simp only [peekObjectWorker, peekBool_at h]; cases v <;> rfl⟩
  | .int8, v, _, _, _, _ => ⟨encodeInt8 v, by rw [encodeObjectWorker], fun r off h => by
      simp only [peekObjectWorker, peekInt8_at h]; rfl⟩
  | .int16, v, _, _, _, _ => ⟨encodeInt16 v, by rw [encodeObjectWorker], fun r off h => by
      simp only [peekObjectWorker, peekInt16_at h]; simp [encodeInt16]⟩
  | .uint8, v, _, _, _, _ => ⟨encodeUint8 v, by rw [encodeObjectWorker], fun r off h => by
      simp only [peekObjectWorker, peekUint8_at h]; rfl⟩
  | .uint16, v, _, _, _, _ => ⟨encodeUint16 v, by rw [encodeObjectWorker], fun r off h => by
      simp only [peekObjectWorker, peekUint16_at h]; simp [encodeUint16]⟩
  | .float64, v, _, _, _, _ => ⟨encodeFloat64 v, by rw [encodeObjectWorker], fun r off h => by
      simp only [peekObjectWorker, peekFloat64_at h]; simp [encodeFloat64]⟩
  | .varInt, v, _, _, _, _ => ⟨encodeVarInt v, by rw [encodeObjectWorker], fun r off h => by
      simp only [peekObjectWorker, peekVarInt_at h]; rfl⟩
  | .varUint, v, _, _, _, _ => ⟨encodeVarUint v, by rw [encodeObjectWorker], fun r off h => by
      simp only [peekObjectWorker, peekVarUint_at h]; rfl⟩
  | .varInt64, v, _, _, _, _ => ⟨encodeVarInt64 v, by rw [encodeObjectWorker], fun r off h => by
      simp only [peekObjectWorker, peekVarInt64_at h]; rfl⟩
  | .varUint64, v, _, _, _, _ => ⟨encodeVarUint64 v, by rw [encodeObjectWorker], fun r off h => by
      simp only [peekObjectWorker, peekVarUint64_at h]; rfl⟩
  | .uuid, v, _, _, _, _ => ⟨encodeUuid v, by rw [encodeObjectWorker], fun r off h => by
      simp only [peekObjectWorker]
      rw [peekFixedData_at' h v.2.symm]
      simp only [Res.bind_ok, encodeUuid, v.2, dif_pos]⟩
  | .int32, v, _, c, hs, _ => by
      obtain rfl : c = false := by simpa [Ty.InSync] using hs
      exact ⟨encodeInt32 v, by rw [encodeObjectWorker]; simp, fun r off h => by
        simp only [peekObjectWorker, peekInt32_at h]; simp [encodeInt32]⟩
  | .int, v, _, c, hs, hf => by
      obtain rfl : c = false := by simpa [Ty.InSync] using hs
      exact ⟨encodeInt32 (v.setWidth 32), by rw [encodeObjectWorker]; simp, fun r off h => by
        simp only [Ty.Fits] at hf
        simp only [peekObjectWorker, peekInt32_at h, Res.map_ok]
        rw [int_roundtrip v hf.1 hf.2]; simp [encodeInt32]⟩
  | .int64, v, _, c, hs, _ => by
      obtain rfl : c = false := by simpa [Ty.InSync] using hs
      exact ⟨encodeInt64 v, by rw [encodeObjectWorker]; simp, fun r off h => by
        simp only [peekObjectWorker, peekInt64_at h]; simp [encodeInt64]⟩
  | .uint32, v, _, c, hs, _ => by
      obtain rfl : c = false := by simpa [Ty.InSync] using hs
      exact ⟨encodeUint32 v, by rw [encodeObjectWorker]; simp, fun r off h => by
        simp only [peekObjectWorker, peekUint32_at h]; simp [encodeUint32]⟩
  | .uint, v, _, c, hs, hf => by
      obtain rfl : c = false := by simpa [Ty.InSync] using hs
      exact ⟨encodeUint32 (v.setWidth 32), by rw [encodeObjectWorker]; simp, fun r off h => by
        simp only [Ty.Fits] at hf
        simp only [peekObjectWorker, peekUint32_at h, Res.map_ok]
        rw [uint_roundtrip v hf]; simp [encodeUint32]⟩
  | .uint64, v, _, c, hs, _ => by
      obtain rfl : c = false := by simpa [Ty.InSync] using hs
      exact ⟨encodeUint64 v, by rw [encodeObjectWorker]; simp, fun r off h => by
        simp only [peekObjectWorker, peekUint64_at h]; simp [encodeUint64]⟩
  | .string, v, n, c, hs, hf => by
      obtain rfl : c = false := by simpa [Ty.InSync] using hs
      refine ⟨encodeString v, by rw [encodeObjectWorker]; cases n <;> simp [encodeStringCase, encodeString], ?_⟩
      intro r off h
      simp only [Ty.Fits] at hf
      simp only [peekObjectWorker, peekNullableString]
      rw [peekNullableData16_at (v := some v) (by intro s h; cases h; exact hf) h]
      simp [encodeString]
  | .compactString, v, _, _, _, hf => by
      refine ⟨encodeCompactString v, by rw [encodeObjectWorker], ?_⟩
      intro r off h
      simp only [Ty.Fits] at hf
      simp only [encodeCompactString, encodeCompactNullableString_eq] at h ⊢
      simp only [peekObjectWorker, peekCompactNullableString]
      rw [peekCompactNullableBytes_at (v := some v) (by intro s h; cases h; exact hf) h]
      simp
  | .nullableString, v, _, _, _, hf => by
      refine ⟨encodeNullableString v, by rw [encodeObjectWorker], ?_⟩
      intro r off h
      simp only [Ty.Fits] at hf
      simp only [peekObjectWorker, peekNullableString]
      rw [peekNullableData16_at hf h]
      simp
  | .compactNullableString, v, _, _, _, hf => by
      refine ⟨encodeCompactNullableString v, by rw [encodeObjectWorker], ?_⟩
      intro r off h
      simp only [Ty.Fits] at hf
      simp only [encodeCompactNullableString_eq] at h ⊢
      simp only [peekObjectWorker, peekCompactNullableString]
      rw [peekCompactNullableBytes_at hf h]
      simp
  | .bytes, v, _, c, _, hf => by
      simp only [Ty.Fits] at hf
      obtain ⟨b, rfl, hl⟩ := hf
      have hrt : ∀ r : Reader, ∀ x ∈ b, ∀ e, (fun x : UInt8 => some (encodeUint8 x)) x = some e → ∀ o, At r o e →
          (fun o => (peekUint8 r o).map some) o = .ok (o + e.length) (some x) := by
        intro r x _ e he o h
        injection he with he; subst he
        simp only [peekUint8_at h, Res.map_ok]; rfl
      cases c with
      | false =>
        refine ⟨encodeBytes (some b), by rw [encodeObjectWorker]; simp, ?_⟩
        intro r off h
        simp only [peekObjectWorker, if_false, Bool.false_eq_true]
        rw [peekObjectVarArray_at _ _ b (hrt r) (encodeItems_bytes b) (by omega) h]
        rfl
      | true =>
        refine ⟨encodeCompactBytes (some b), by rw [encodeObjectWorker]; simp, ?_⟩
        intro r off h
        have e : encodeCompactBytes (some b) = encodeVarInt (BitVec.ofNat 32 b.length + 1) ++ b := by
          simp only [encodeCompactBytes, encodeCompactNullableBytes]
          rw [BitVec.ofNat_add]; rfl
        rw [e] at h ⊢
        simp only [peekObjectWorker, if_true]
        rw [peekObjectCompactVarArray_at _ _ b (hrt r) (encodeItems_bytes b) (by omega) h]
        rfl
  | .nullableBytes, v, n, c, hs, hf => by
      obtain ⟨rfl, rfl⟩ : n = false ∧ c = false := by simpa [Ty.InSync] using hs
      refine ⟨encodeNullableBytes v, by rw [encodeObjectWorker]; simp, ?_⟩
      intro r off h
      simp only [Ty.Fits] at hf
      simp only [peekObjectWorker]
      rw [peekNullableBytes_at (fun s h => by have := hf s h; omega) h]
      simp
  | .compactNullableBytes, v, n, c, hs, hf => by
      obtain ⟨rfl, rfl⟩ : n = false ∧ c = false := by simpa [Ty.InSync] using hs
      refine ⟨encodeCompactNullableBytes v, by rw [encodeObjectWorker]; simp, ?_⟩
      intro r off h
      simp only [Ty.Fits] at hf
      simp only [peekObjectWorker]
      rw [peekCompactNullableBytes_at hf h]
      simp
  | .slice e, v, _, c, hs, hf => by
      simp only [Ty.Fits] at hf
      obtain ⟨xs, rfl, hl, hx⟩ := hf
      simp only [Ty.InSync] at hs
      have ih : ∀ x ∈ xs, ∃ b, encodeObjectWorker e x false false = some b ∧
          Decodes (fun r off => peekObjectWorker e r off false false) b (some x) :=
        fun x h => roundtrip e x false false hs (hx x h)
      obtain ⟨body, hb⟩ := encodeItems_some (fun x => encodeObjectWorker e x false false) xs
        (fun x h => ⟨_, (ih x h).choose_spec.1⟩)
      have hrt : ∀ r : Reader, ∀ x ∈ xs, ∀ b, (fun x => encodeObjectWorker e x false false) x = some b → ∀ o, At r o b →
          (fun o => peekObjectWorker e r o false false) o = .ok (o + b.length) (some x) := by
        intro r x hx b hb o h
        obtain ⟨b', h1, h2⟩ := ih x hx
        simp only [h1, Option.some.injEq] at hb
        subst hb
        exact h2 r o h
      have ha := InSync_assignable e _ _ hs
      cases c with
      | false =>
        refine ⟨encodeInt32 (BitVec.ofNat 32 xs.length) ++ body, by rw [encodeObjectWorker]; simp [hb], ?_⟩
        intro r off h
        simp only [peekObjectWorker, if_false, Bool.false_eq_true, ha]
        rw [peekObjectVarArray_at _ _ xs (hrt r) hb (by omega) h]
        rfl
      | true =>
        refine ⟨encodeVarInt (BitVec.ofNat 32 xs.length + 1) ++ body, by rw [encodeObjectWorker]; simp [hb], ?_⟩
        intro r off h
        simp only [peekObjectWorker, if_true, ha]
        rw [peekObjectCompactVarArray_at _ _ xs (hrt r) hb (by omega) h]
        rfl
  | .struct fs, v, _, _, hs, hf => by
      simp only [Ty.InSync] at hs
      simp only [Ty.Fits] at hf
      obtain ⟨b, h1, h2⟩ := roundtrip_struct fs v hs hf
      refine ⟨b, by rw [encodeObjectWorker]; exact h1, ?_⟩
      intro r off h
      simp only [peekObjectWorker]
      rw [h2 r off h]; rfl
  | .ptr (.struct fs), v, _, c, hs, hf => by
      simp only [Ty.InSync] at hs
      simp only [Ty.Fits] at hf
      obtain ⟨x, rfl, hf⟩ := hf
      obtain ⟨b, h1, h2⟩ := roundtrip_struct fs x hs hf
      refine ⟨b, by rw [encodeObjectWorker]; simp only [encodeObjectWorker]; exact h1, ?_⟩
      intro r off h
      simp only [peekObjectWorker]
      rw [h2 r off h]; rfl
theorem roundtrip_struct : (fs : Fields) → (v : fs.den) → fs.InSync = true → fs.Fits v →
    ∃ b, encodeStruct fs v = some b ∧ Decodes (peekObjectStruct fs) b v
  | .nil, v, _, _ => ⟨[], by rw [encodeStruct], fun r off h => by simp [peekObjectStruct]⟩
  | .cons nm tag t rest, (v, vs), hs, hf => by
      simp only [Fields.InSync, Bool.and_eq_true] at hs
      simp only [Fields.Fits] at hf
      obtain ⟨b, h1, h2⟩ := roundtrip t v _ _ hs.1 hf.1
      obtain ⟨bs, h3, h4⟩ := roundtrip_struct rest vs hs.2 hf.2
      refine ⟨b ++ bs, by rw [encodeStruct]; simp [h1, h3], ?_⟩
      intro r off h
      obtain ⟨ha, hb⟩ := h.append
      have h2' := h2 r off ha
      simp only at h2'
      simp only [peekObjectStruct]
      rw [h2']
      simp only [Res.bind_ok, InSync_assignable t _ _ hs.1, if_true]
      rw [h4 r _ hb]
      simp; omega
end

end KM
