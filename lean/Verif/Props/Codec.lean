import Verif.Codec.Tags
import Verif.Codec.VarintSpec
/-
Properties C01-C10: the wire codec. Readers are written out as `⟨pre ++ (b ++ post)⟩`: the message
contains the bytes `b` at offset `pre.length`, with arbitrary bytes before and after.
-/
namespace KM.Props
open KM

theorem at_mk (pre b post : Bytes) (h : pre.length + b.length ≤ 4096) : At ⟨pre ++ (b ++ post)⟩ pre.length b := by
  refine ⟨pre, post.take (4096 - (pre.length + b.length)), ?_, rfl⟩
  simp only [Reader.window, defaultBufSize, List.take_append]
  rw [List.take_of_length_le (by omega), List.take_of_length_le (by omega)]
  congr 3; omega

/-! ### C01 -/

/-- **C01** Every value of every in-sync type encodes (no panic), and decoding the bytes in any context inside
the peek window gives back the value and stops right after them. -/
theorem C01_round_trip (t : Ty) (v : t.den) (nullable compact : Bool) (hs : t.InSync nullable compact = true)
    (hf : t.Fits v) : ∃ b, encodeObjectWorker t v nullable compact = some b ∧
      ∀ pre post : Bytes, pre.length + b.length ≤ 4096 →
        peekObjectWorker t ⟨pre ++ (b ++ post)⟩ pre.length nullable compact = .ok (pre.length + b.length) (some v) := by
  obtain ⟨b, h1, h2⟩ := roundtrip t v nullable compact hs hf
  exact ⟨b, h1, fun pre post h => h2 _ _ (at_mk pre b post h)⟩

/-- A nested type covering most constructors, used to show the hypotheses are met. -/
def sampleTy : Ty := .struct (.cons "A" [] .int32 (.cons "B" ["nullable"] .string (.cons "C" ["compact"] (.slice
  (.struct (.cons "D" [] .nullableString (.cons "E" [] .uuid (.cons "F" [] .int .nil)))))
  (.cons "G" [] (.ptr (.struct (.cons "H" ["compact"] .bytes (.cons "I" [] .compactNullableBytes .nil)))) .nil))))

def sampleVal : sampleTy.den :=
  (-7, [104, 105], some [(none, ⟨List.replicate 16 9, rfl⟩, -1, ()), (some [], ⟨List.replicate 16 255, rfl⟩, 5, ())],
    some (some [1, 2, 3], none, ()), ())

example : sampleTy.InSync false false = true ∧ sampleTy.Fits sampleVal := by
  refine ⟨by decide, ?_⟩
  simp only [sampleTy, Ty.Fits, Fields.Fits, sampleVal]
  refine ⟨trivial, by decide, ⟨_, rfl, by decide, ?_⟩, ⟨_, rfl, ⟨_, rfl, by decide⟩, ?_, trivial⟩, trivial⟩
  · intro x hx
    simp only [List.mem_cons, List.not_mem_nil, or_false] at hx
    rcases hx with rfl | rfl
    · exact ⟨(by intro s h; cases h), trivial, by decide, trivial⟩
    · exact ⟨(by intro s h; cases h; decide), trivial, by decide, trivial⟩
  · intro s h; cases h

/-! ### C02 -/

/-- **C02** A proper prefix of an encoded value is reported as "not enough data": neither a value nor a panic. -/
theorem C02_truncation (t : Ty) (v : t.den) (nullable compact : Bool) (hs : t.InSync nullable compact = true)
    (hf : t.Fits v) (b : Bytes) (hb : encodeObjectWorker t v nullable compact = some b) (pre p rest : Bytes)
    (hp : b = p ++ rest) (hne : rest ≠ []) (hlen : pre.length + b.length ≤ 4096) :
    peekObjectWorker t ⟨pre ++ p⟩ pre.length nullable compact = .short := by
  obtain ⟨b', h1, h2⟩ := C01_round_trip t v nullable compact hs hf
  rw [hb] at h1; injection h1 with h1; subst h1
  have hfull := h2 pre [] hlen
  have hl := local_peekObjectWorker t nullable compact pre.length
  have hrl : 0 < rest.length := List.length_pos_iff.2 hne
  have hbl : b.length = p.length + rest.length := by rw [hp]; simp
  have hw : (⟨pre ++ p⟩ : Reader).window = pre ++ p := by
    simp only [Reader.window, defaultBufSize]
    rw [List.take_of_length_le (by simp; omega)]
  have hw2 : (⟨pre ++ (b ++ [])⟩ : Reader).window = pre ++ p ++ rest := by
    simp only [Reader.window, defaultBufSize]
    rw [List.take_of_length_le (by simp; omega), hp]; simp
  have hoff : pre.length ≤ (⟨pre ++ p⟩ : Reader).window.length := by rw [hw]; simp
  have hpre : (⟨pre ++ p⟩ : Reader).window <+: (⟨pre ++ (b ++ [])⟩ : Reader).window := by
    rw [hw, hw2]; exact ⟨rest, rfl⟩
  cases hr : peekObjectWorker t ⟨pre ++ p⟩ pre.length nullable compact with
  | short => rfl
  | panic =>
    have := hl.panic _ hr hoff _ hpre
    rw [hfull] at this; cases this
  | ok n x =>
    have hle := hl.le _ _ _ hr hoff
    have := hl.ok _ _ _ hr ⟨pre ++ (b ++ [])⟩ (prefix_take_eq hpre hle)
    rw [hfull] at this
    injection this with e
    rw [hw] at hle
    simp at hle
    omega

/-- The hypotheses are met: a truncated struct. -/
example : peekObjectWorker (.struct (.cons "A" [] .int32 (.cons "B" [] .string .nil))) ⟨[0, 0, 0, 5, 0, 2, 104]⟩ 0 false false
    = .short := by
  exact C02_truncation (.struct (.cons "A" [] .int32 (.cons "B" [] .string .nil))) (5, [104, 105], ()) false false rfl
    (by simp [Ty.Fits, Fields.Fits]) [0, 0, 0, 5, 0, 2, 104, 105] (by decide) [] [0, 0, 0, 5, 0, 2, 104] [105] rfl
    (by simp) (by decide)

/-! ### C03 -/

theorem window_take_le (r : Reader) (n : Nat) (h : n ≤ 4096) : r.window.take n = r.rest.take n := by
  rw [Reader.window, defaultBufSize, List.take_take, Nat.min_eq_left h]

/-- **C03** On arbitrary bytes: a successful decode ends between its start and the end of the (peekable) data and
depends only on the bytes before its end, whatever follows them. -/
theorem C03_bounded_local (t : Ty) (r : Reader) (off : Nat) (nullable compact : Bool) (next : Nat) (v : Option t.den)
    (hoff : off ≤ min r.rest.length 4096) (h : peekObjectWorker t r off nullable compact = .ok next v) :
    off ≤ next ∧ next ≤ min r.rest.length 4096 ∧
      ∀ r' : Reader, r'.rest.take next = r.rest.take next → peekObjectWorker t r' off nullable compact = .ok next v := by
  have hl := local_peekObjectWorker t nullable compact off
  have hw : r.window.length = min r.rest.length 4096 := by
    simp [Reader.window, defaultBufSize]; omega
  have hle := hl.le r next v h (by omega)
  refine ⟨hl.ge r next v h, by omega, ?_⟩
  intro r' hr'
  apply hl.ok r next v h r'
  rw [window_take_le r' next (by omega), window_take_le r next (by omega), hr']

/-- **C03**, panics: once the bytes received make the decoder panic, further bytes do not help. -/
theorem C03_panic_stable (t : Ty) (data more : Bytes) (off : Nat) (nullable compact : Bool)
    (hoff : off ≤ min data.length 4096) (h : peekObjectWorker t ⟨data⟩ off nullable compact = .panic) :
    peekObjectWorker t ⟨data ++ more⟩ off nullable compact = .panic := by
  refine (local_peekObjectWorker t nullable compact off).panic ⟨data⟩ h ?_ ⟨data ++ more⟩ ?_
  · simp [Reader.window, defaultBufSize]; omega
  · simp only [Reader.window, List.take_append]
    exact ⟨_, rfl⟩

/-- **C03** for the tagged-field section. -/
theorem C03_tags_bounded_local (r : Reader) (off : Nat) (fields : List (Int × Ty)) (next : Nat)
    (tags : List (Int × TagVal)) (hoff : off ≤ min r.rest.length 4096) (h : peekTags r off fields = .ok next tags) :
    off ≤ next ∧ next ≤ min r.rest.length 4096 ∧
      ∀ r' : Reader, r'.rest.take next = r.rest.take next → peekTags r' off fields = .ok next tags := by
  have hl := local_peekTags fields off
  have hw : r.window.length = min r.rest.length 4096 := by
    simp [Reader.window, defaultBufSize]; omega
  have hle := hl.le r next tags h (by omega)
  refine ⟨hl.ge r next tags h, by omega, ?_⟩
  intro r' hr'
  apply hl.ok r next tags h r'
  rw [window_take_le r' next (by omega), window_take_le r next (by omega), hr']

/-- Hostile bytes that do decode: an array claiming 2 elements. -/
example : peekObjectWorker (.slice .int16) ⟨[9, 0, 0, 0, 2, 255, 255, 0, 1, 77, 78]⟩ 1 false false
    = .ok 9 (some (some [-1, 1])) := by decide

/-! ### C04 -/

/-- **C04** unsigned 32-bit. -/
theorem C04_varuint32 (v : BitVec 32) :
    (encodeVarUint v).length ≤ 5 ∧ (encodeVarUint v).length = Spec.groups v.toNat ∧ Spec.Terminated (encodeVarUint v) ∧
      Spec.leb128 (encodeVarUint v) = v.toNat ∧
      ∀ pre post : Bytes, pre.length + (encodeVarUint v).length ≤ 4096 →
        peekVarUint ⟨pre ++ (encodeVarUint v ++ post)⟩ pre.length = .ok (pre.length + (encodeVarUint v).length) v := by
  obtain ⟨h1, h2, h3⟩ := makeVarU_spec (w := 32) (by decide) v
  exact ⟨makeVarUint_length v, h1, h2, h3, fun pre post h => peekVarUint_at (at_mk pre _ post h)⟩

/-- **C04** unsigned 64-bit. -/
theorem C04_varuint64 (v : BitVec 64) :
    (encodeVarUint64 v).length ≤ 10 ∧ (encodeVarUint64 v).length = Spec.groups v.toNat ∧
      Spec.Terminated (encodeVarUint64 v) ∧ Spec.leb128 (encodeVarUint64 v) = v.toNat ∧
      ∀ pre post : Bytes, pre.length + (encodeVarUint64 v).length ≤ 4096 →
        peekVarUint64 ⟨pre ++ (encodeVarUint64 v ++ post)⟩ pre.length
          = .ok (pre.length + (encodeVarUint64 v).length) v := by
  obtain ⟨h1, h2, h3⟩ := makeVarU_spec (w := 64) (by decide) v
  exact ⟨makeVarUint64_length v, h1, h2, h3, fun pre post h => peekVarUint64_at (at_mk pre _ post h)⟩

/-- **C04** signed 32-bit (zigzag). -/
theorem C04_varint32 (v : BitVec 32) :
    (encodeVarInt v).length ≤ 5 ∧ (encodeVarInt v).length = Spec.groups (Spec.zigzag v.toInt) ∧
      Spec.Terminated (encodeVarInt v) ∧ Spec.leb128 (encodeVarInt v) = Spec.zigzag v.toInt ∧
      ∀ pre post : Bytes, pre.length + (encodeVarInt v).length ≤ 4096 →
        peekVarInt ⟨pre ++ (encodeVarInt v ++ post)⟩ pre.length = .ok (pre.length + (encodeVarInt v).length) v := by
  obtain ⟨h1, h2, h3⟩ := makeVarU_spec (w := 32) (by decide) (zigzag v)
  rw [zigzag_toNat (by decide)] at h1 h3
  exact ⟨makeVarUint_length _, h1, h2, h3, fun pre post h => peekVarInt_at (at_mk pre _ post h)⟩

/-- **C04** signed 64-bit (zigzag). -/
theorem C04_varint64 (v : BitVec 64) :
    (encodeVarInt64 v).length ≤ 10 ∧ (encodeVarInt64 v).length = Spec.groups (Spec.zigzag v.toInt) ∧
      Spec.Terminated (encodeVarInt64 v) ∧ Spec.leb128 (encodeVarInt64 v) = Spec.zigzag v.toInt ∧
      ∀ pre post : Bytes, pre.length + (encodeVarInt64 v).length ≤ 4096 →
        peekVarInt64 ⟨pre ++ (encodeVarInt64 v ++ post)⟩ pre.length
          = .ok (pre.length + (encodeVarInt64 v).length) v := by
  obtain ⟨h1, h2, h3⟩ := makeVarU_spec (w := 64) (by decide) (zigzag v)
  rw [zigzag_toNat (by decide)] at h1 h3
  exact ⟨makeVarUint64_length _, h1, h2, h3, fun pre post h => peekVarInt64_at (at_mk pre _ post h)⟩

example : encodeVarInt (-3) = [5] ∧ encodeVarUint 300 = [0xAC, 0x02] ∧ Spec.zigzag (-3) = 5 := by
  refine ⟨encodeVarInt_small (-3) (by decide), ?_, by decide⟩
  rw [encodeVarUint, makeVarUint, makeVarU_eq (by decide), if_neg (by decide), makeVarU_small (by decide) _ (by decide)]
  decide

/-! ### C05 -/

/-- **C05** writing: exact width, big-endian, two's complement. -/
theorem C05_write_big_endian :
    (∀ v : I8, (encodeInt8 v).length = 1 ∧ Spec.signed 8 (Spec.be (encodeInt8 v)) = v.toInt) ∧
    (∀ v : I16, (encodeInt16 v).length = 2 ∧ Spec.signed 16 (Spec.be (encodeInt16 v)) = v.toInt) ∧
    (∀ v : I32, (encodeInt32 v).length = 4 ∧ Spec.signed 32 (Spec.be (encodeInt32 v)) = v.toInt) ∧
    (∀ v : I64, (encodeInt64 v).length = 8 ∧ Spec.signed 64 (Spec.be (encodeInt64 v)) = v.toInt) ∧
    (∀ v : UInt8, (encodeUint8 v).length = 1 ∧ Spec.be (encodeUint8 v) = v.toNat) ∧
    (∀ v : BitVec 16, (encodeUint16 v).length = 2 ∧ Spec.be (encodeUint16 v) = v.toNat) ∧
    (∀ v : BitVec 32, (encodeUint32 v).length = 4 ∧ Spec.be (encodeUint32 v) = v.toNat) ∧
    (∀ v : BitVec 64, (encodeUint64 v).length = 8 ∧ Spec.be (encodeUint64 v) = v.toNat) := by
  have key : ∀ k n, n < 256 ^ k → Spec.be (putBE k n) = n := fun k n h => by
    rw [← getBE_eq_be, getBE_putBE_of_lt h]
  refine ⟨fun v => ⟨rfl, ?_⟩, fun v => ⟨rfl, ?_⟩, fun v => ⟨rfl, ?_⟩, fun v => ⟨rfl, ?_⟩, fun v => ⟨rfl, ?_⟩,
    fun v => ⟨rfl, ?_⟩, fun v => ⟨rfl, ?_⟩, fun v => ⟨rfl, ?_⟩⟩
  · have hv := v.isLt
    have : Spec.be (encodeInt8 v) = v.toNat := by
      simp only [encodeInt8, Spec.be, UInt8.toNat_ofNat', List.length_nil]; omega
    rw [this, signed_toInt (by decide)]
  · rw [encodeInt16, key 2 _ v.isLt, signed_toInt (by decide)]
  · rw [encodeInt32, key 4 _ v.isLt, signed_toInt (by decide)]
  · rw [encodeInt64, key 8 _ v.isLt, signed_toInt (by decide)]
  · simp [encodeUint8, Spec.be]
  · exact key 2 _ v.isLt
  · exact key 4 _ v.isLt
  · exact key 8 _ v.isLt

theorem ofNat_getBE_toNat {k w : Nat} (b : Bytes) (hb : b.length = k) (hw : 256 ^ k = 2 ^ w) :
    (BitVec.ofNat w (getBE (b.take k))).toNat = Spec.be b := by
  rw [List.take_of_length_le (by omega), BitVec.toNat_ofNat, ← getBE_eq_be, ← hw, ← hb, Nat.mod_eq_of_lt (getBE_lt b)]

/-- **C05** reading: whatever the bytes are, the decoded integer is their two's complement big-endian value. -/
theorem C05_read_big_endian (pre b post : Bytes) (h : pre.length + b.length ≤ 4096) :
    (b.length = 1 → ∃ x, peekInt8 ⟨pre ++ (b ++ post)⟩ pre.length = .ok (pre.length + 1) x ∧ x.toInt = Spec.signed 8 (Spec.be b)) ∧
    (b.length = 2 → ∃ x, peekInt16 ⟨pre ++ (b ++ post)⟩ pre.length = .ok (pre.length + 2) x ∧ x.toInt = Spec.signed 16 (Spec.be b)) ∧
    (b.length = 4 → ∃ x, peekInt32 ⟨pre ++ (b ++ post)⟩ pre.length = .ok (pre.length + 4) x ∧ x.toInt = Spec.signed 32 (Spec.be b)) ∧
    (b.length = 8 → ∃ x, peekInt64 ⟨pre ++ (b ++ post)⟩ pre.length = .ok (pre.length + 8) x ∧ x.toInt = Spec.signed 64 (Spec.be b)) ∧
    (b.length = 1 → ∃ x, peekUint8 ⟨pre ++ (b ++ post)⟩ pre.length = .ok (pre.length + 1) x ∧ x.toNat = Spec.be b) ∧
    (b.length = 2 → ∃ x, peekUint16 ⟨pre ++ (b ++ post)⟩ pre.length = .ok (pre.length + 2) x ∧ x.toNat = Spec.be b) ∧
    (b.length = 4 → ∃ x, peekUint32 ⟨pre ++ (b ++ post)⟩ pre.length = .ok (pre.length + 4) x ∧ x.toNat = Spec.be b) ∧
    (b.length = 8 → ∃ x, peekUint64 ⟨pre ++ (b ++ post)⟩ pre.length = .ok (pre.length + 8) x ∧ x.toNat = Spec.be b) := by
  have hat := at_mk pre b post h
  refine ⟨fun hb => ?_, fun hb => ?_, fun hb => ?_, fun hb => ?_, fun hb => ?_, fun hb => ?_, fun hb => ?_, fun hb => ?_⟩
  · refine ⟨_, by rw [peekInt8, peekFixedData_at' hat hb.symm]; rfl, ?_⟩
    rw [← signed_toInt (by decide), ofNat_getBE_toNat b hb (by decide)]
  · refine ⟨_, by rw [peekInt16, peekFixedData_at' hat hb.symm]; rfl, ?_⟩
    rw [← signed_toInt (by decide), ofNat_getBE_toNat b hb (by decide)]
  · refine ⟨_, by rw [peekInt32, peekFixedData_at' hat hb.symm]; rfl, ?_⟩
    rw [← signed_toInt (by decide), ofNat_getBE_toNat b hb (by decide)]
  · refine ⟨_, by rw [peekInt64, peekFixedData_at' hat hb.symm]; rfl, ?_⟩
    rw [← signed_toInt (by decide), ofNat_getBE_toNat b hb (by decide)]
  · refine ⟨_, by rw [peekUint8, peekFixedData_at' hat hb.symm]; rfl, ?_⟩
    have := ofNat_getBE_toNat (w := 8) b hb (by decide)
    rw [BitVec.toNat_ofNat] at this
    rw [UInt8.toNat_ofNat', this]
  · exact ⟨_, by rw [peekUint16, peekFixedData_at' hat hb.symm]; rfl, ofNat_getBE_toNat b hb (by decide)⟩
  · exact ⟨_, by rw [peekUint32, peekFixedData_at' hat hb.symm]; rfl, ofNat_getBE_toNat b hb (by decide)⟩
  · exact ⟨_, by rw [peekUint64, peekFixedData_at' hat hb.symm]; rfl, ofNat_getBE_toNat b hb (by decide)⟩

example : Spec.signed 16 (Spec.be [255, 254]) = -2 ∧ encodeInt16 (-2) = [255, 254] := by decide

/-! ### C06 -/

/-- At type `t` the values `null` and `empty` are written as `bn` and `be`, which differ, and each is read back as itself, whatever stands before and after it. -/
def KeptApart (t : Ty) (null empty : t.den) (bn be : Bytes) : Prop :=
  encodeObject t null = some bn ∧ encodeObject t empty = some be ∧ bn ≠ be ∧
    ∀ pre post : Bytes, pre.length + 4 ≤ 4096 →
      peekObject t ⟨pre ++ (bn ++ post)⟩ pre.length = .ok (pre.length + bn.length) (some null) ∧
      peekObject t ⟨pre ++ (be ++ post)⟩ pre.length = .ok (pre.length + be.length) (some empty)

/-- **C06** For the four nullable types, null and empty encode differently and decode to themselves in any context. -/
theorem C06_null_vs_empty :
    KeptApart .nullableString (none : Option Bytes) (some ([] : Bytes)) [255, 255] [0, 0] ∧
    KeptApart .compactNullableString (none : Option Bytes) (some ([] : Bytes)) [0] [2] ∧
    KeptApart .nullableBytes (none : Option Bytes) (some ([] : Bytes)) [255, 255, 255, 255] [0, 0, 0, 0] ∧
    KeptApart .compactNullableBytes (none : Option Bytes) (some ([] : Bytes)) [0] [2] := by
  have main : ∀ (t : Ty) (f : Option Bytes → t.den) (bn be : Bytes), t.InSync false false = true →
      (∀ o, (∀ s, o = some s → s = []) → t.Fits (f o)) → bn.length ≤ 4 → be.length ≤ 4 →
      encodeObject t (f none) = some bn → encodeObject t (f (some [])) = some be → bn ≠ be → KeptApart t (f none) (f (some [])) bn be := by
    intro t f bn be hs hf l1 l2 h1 h2 hb
    refine ⟨h1, h2, hb, ?_⟩
    intro pre post hl
    obtain ⟨b1, e1, g1⟩ := C01_round_trip t (f none) false false hs (hf none (by simp))
    obtain ⟨b2, e2, g2⟩ := C01_round_trip t (f (some [])) false false hs (hf (some []) (by simp))
    have q1 : bn = b1 := Option.some.inj (h1.symm.trans e1)
    have q2 : be = b2 := Option.some.inj (h2.symm.trans e2)
    subst q1; subst q2
    exact ⟨g1 pre post (by omega), g2 pre post (by omega)⟩
  refine ⟨?_, ?_, ?_, ?_⟩
  · exact main .nullableString id [255, 255] [0, 0] rfl
      (by intro o h; simp only [Ty.Fits]; intro s e; rw [h s e]; decide) (by decide) (by decide) (by decide) (by decide) (by decide)
  · exact main .compactNullableString id [0] [2] rfl
      (by intro o h; simp only [Ty.Fits]; intro s e; rw [h s e]; decide) (by decide) (by decide)
      (congrArg some (encodeVarInt_small 0 (by decide)))
      (congrArg some (congrArg (· ++ []) (encodeVarInt_small 1 (by decide))))
      (by decide)
  · exact main .nullableBytes id [255, 255, 255, 255] [0, 0, 0, 0] rfl
      (by intro o h; simp only [Ty.Fits]; intro s e; rw [h s e]; decide) (by decide) (by decide) (by decide) (by decide) (by decide)
  · exact main .compactNullableBytes id [0] [2] rfl
      (by intro o h; simp only [Ty.Fits]; intro s e; rw [h s e]; decide) (by decide) (by decide)
      (congrArg some (encodeVarInt_small 0 (by decide)))
      (congrArg some (congrArg (· ++ []) (encodeVarInt_small 1 (by decide))))
      (by decide)

/-- **C06**: a plain string decoder reads a null string as the empty string. -/
theorem C06_plain_string_reads_null_as_empty (pre post : Bytes) (h : pre.length + 2 ≤ 4096) :
    peekString ⟨pre ++ ([255, 255] ++ post)⟩ pre.length = .ok (pre.length + 2) [] := by
  have hat := at_mk pre [255, 255] post (by simpa using h)
  have : peekNullableData16 ⟨pre ++ ([255, 255] ++ post)⟩ pre.length = .ok (pre.length + 2) none := by
    simpa [encodeNullableString, encodeInt16] using peekNullableData16_at (v := none) (by intro s h; cases h) hat
  generalize (⟨pre ++ ([255, 255] ++ post)⟩ : Reader) = r at this ⊢
  simp [peekString, peekObject, peekObjectWorker, peekNullableString, this]

/-! ### C07 -/

/-- **C07** (exact extent): a string sent alone is read back exactly when its length is at most 4094 bytes
(4096-byte peek window minus the length prefix). The property as listed ("whatever its length") is false. -/
theorem C07_transportable_iff (s : Bytes) :
    peekString ⟨encodeString s⟩ 0 = .ok (2 + s.length) s ↔ s.length ≤ 4094 := by
  constructor
  · intro h
    simp only [peekString] at h
    cases hp : peekObject .string ⟨encodeString s⟩ 0 with
    | short => rw [hp] at h; cases h
    | panic => rw [hp] at h; cases h
    | ok n v =>
      rw [hp] at h
      simp only [Res.map_ok, Res.ok.injEq] at h
      have := C03_bounded_local .string ⟨encodeString s⟩ 0 false false n v (by omega) hp
      omega
  · intro h
    have hlen : (encodeString s).length = 2 + s.length := by simp [encodeString, encodeNullableString, encodeInt16]
    obtain ⟨b, h1, h2⟩ := C01_round_trip .string s false false rfl (by simp only [Ty.Fits]; omega)
    have e : b = encodeString s := by
      simp [encodeObjectWorker, encodeStringCase] at h1; exact h1.symm
    subst e
    have := h2 [] [] (by simp; omega)
    simp only [List.nil_append, List.append_nil, List.length_nil, Nat.zero_add] at this
    simp [peekString, peekObject, this, hlen]

/-- **C07** is false as listed: witness. -/
theorem C07_false : ¬ ∀ s : Bytes, peekString ⟨encodeString s⟩ 0 = .ok (2 + s.length) s := by
  intro h
  have := (C07_transportable_iff (List.replicate 5000 0)).1 (h _)
  rw [List.length_replicate] at this
  omega

/-- **C07**, towards any protocol-conforming reader: the signed 16-bit length written in front of a string is its
length exactly when the string is shorter than 32768 bytes; longer strings are announced with a wrapped length. -/
theorem C07_length_prefix_iff (s : Bytes) :
    Spec.signed 16 (Spec.be ((encodeString s).take 2)) = s.length ↔ s.length < 32768 := by
  have e : (encodeString s).take 2 = encodeInt16 (BitVec.ofNat 16 s.length) := by
    simp only [encodeString, encodeNullableString]
    exact List.take_left' rfl
  rw [e, (C05_write_big_endian.2.1 _).2]
  constructor
  · intro h
    have := @BitVec.toInt_lt 16 (BitVec.ofNat 16 s.length)
    omega
  · intro h
    exact toInt_ofNat_small 16 _ (by decide) h

/-- **C07** (partial): strings that fit are transported in any context. Missing: strings that do not fit the peek window. -/
theorem C07_partial (s pre post : Bytes) (h : pre.length + 2 + s.length ≤ 4096) :
    peekString ⟨pre ++ (encodeString s ++ post)⟩ pre.length = .ok (pre.length + 2 + s.length) s := by
  obtain ⟨b, h1, h2⟩ := C01_round_trip .string s false false rfl (by simp only [Ty.Fits]; omega)
  have e : b = encodeString s := by
    simp [encodeObjectWorker, encodeStringCase] at h1; exact h1.symm
  subst e
  have hlen : (encodeString s).length = 2 + s.length := by simp [encodeString, encodeNullableString, encodeInt16]
  have := h2 pre post (by omega)
  simp [peekString, peekObject, this, hlen]; omega

/-! ### C08 -/

/-- One compact-annotated field. -/
def compactField (t : Ty) : Fields := .cons "F" ["compact"] t .nil

/-- **C08** is false as listed: although `t` by itself round-trips, a struct field of type `t` annotated as compact does
not. Witness: `int32` 1 is written as one zigzag byte and read as four bytes. -/
theorem C08_false : ¬ ∀ (t : Ty) (v : t.den) (b : Bytes), t.InSync false false = true → t.Fits v →
    encodeStruct (compactField t) (v, ()) = some b → b.length ≤ 4096 →
    peekObjectStruct (compactField t) ⟨b⟩ 0 = .ok b.length (v, ()) := by
  intro h
  have e : encodeStruct (compactField .int32) ((1 : I32), ()) = some [2] := by
    have : encodeVarInt 1 = [2] := encodeVarInt_small 1 (by decide)
    simp [compactField, encodeStruct, encodeObjectWorker, kafkaTags] at this ⊢
    exact this
  have := h .int32 1 [2] rfl trivial e (by decide)
  simp [compactField, peekObjectStruct, peekObjectWorker, peekInt32, peekFixedData, Reader.peek, defaultBufSize] at this

/-- **C08**: strings annotated as compact fail too (written with a zigzag length, read with a 16-bit length). -/
theorem C08_false_string : ∃ (s b : Bytes), encodeStruct (compactField .string) (s, ()) = some b ∧
    peekObjectStruct (compactField .string) ⟨b⟩ 0 = .short := by
  refine ⟨[97], [4, 97], ?_, rfl⟩
  have : encodeVarInt 2 = [4] := encodeVarInt_small 2 (by decide)
  simp [compactField, encodeStruct, encodeObjectWorker, encodeStringCase, encodeCompactString, encodeCompactNullableString,
    kafkaTags] at this ⊢
  rw [this]; rfl

/-- **C08**: a string behind a pointer cannot be written at all in a field annotated as compact, only nil can (`obj.(*string)` on a `string` panics); without the annotation both can. -/
theorem C08_false_pointer (s : Bytes) : encodeStruct (compactField (.ptr .string)) (some s, ()) = none ∧
    encodeStruct (compactField (.ptr .string)) (none, ()) = some (encodeVarInt 0) ∧
    encodeStruct (.cons "F" [] (.ptr .string) .nil) (some s, ()) = some (encodeNullableString (some s)) ∧
    encodeStruct (.cons "F" [] (.ptr .string) .nil) (none, ()) = some (encodeNullableString none) := by
  simp [compactField, encodeStruct, encodeObjectWorker, encodeStringCase, encodeCompactNullableString, kafkaTags]

/-- **C08** (partial): the annotation is honoured by both directions for slices and byte slices. Missing: annotated
32/64-bit integers and strings, where it is false (`C08_false`, `C08_false_string`). -/
theorem C08_partial (t : Ty) (v : t.den) (ht : t = .bytes ∨ ∃ e, t = .slice e ∧ e.InSync false false = true) (hf : t.Fits v) :
    ∃ b, encodeStruct (compactField t) (v, ()) = some b ∧ ∀ pre post : Bytes, pre.length + b.length ≤ 4096 →
      peekObjectStruct (compactField t) ⟨pre ++ (b ++ post)⟩ pre.length = .ok (pre.length + b.length) (v, ()) := by
  have hs : (compactField t).InSync = true := by
    rcases ht with rfl | ⟨e, rfl, he⟩
    · decide
    · simp [compactField, Fields.InSync, Ty.InSync, he]
  obtain ⟨b, h1, h2⟩ := roundtrip_struct (compactField t) (v, ()) hs ⟨hf, trivial⟩
  exact ⟨b, h1, fun pre post h => h2 _ _ (at_mk pre b post h)⟩

/-- The partial claim has non-trivial instances, in the compact format (length + 1, zigzag). -/
example : encodeStruct (compactField (.slice .int16)) (some [1, 2], ()) = some [6, 0, 1, 0, 2] := by
  have : encodeVarInt 3 = [6] := encodeVarInt_small 3 (by decide)
  simp [compactField, encodeStruct, encodeObjectWorker, encodeItems, kafkaTags] at this ⊢
  rw [this]; rfl

/-! ### C09 -/

/-- **C09** is false as listed: a null array (length -1) in a struct panics, whatever the element type, the other fields
and the surrounding bytes. -/
theorem C09_null_array_in_struct_panics (name : String) (e : Ty) (rest : Fields) (pre post : Bytes)
    (h : pre.length + 4 ≤ 4096) :
    peekObjectStruct (.cons name [] (.slice e) rest) ⟨pre ++ ([255, 255, 255, 255] ++ post)⟩ pre.length = .panic := by
  have hat := at_mk pre [255, 255, 255, 255] post (by simpa using h)
  have := peekInt32_at (v := -1) hat
  generalize (⟨pre ++ ([255, 255, 255, 255] ++ post)⟩ : Reader) = r at this ⊢
  simp [peekObjectStruct, peekObjectWorker, kafkaTags, peekObjectVarArray, this, peekObjectFixedArray]

/-- **C09** (partial): at top level a null array decodes to nil (no elements, no crash). Missing: arrays inside a
struct, where it is false. -/
theorem C09_partial (e : Ty) (pre post : Bytes) (h : pre.length + 4 ≤ 4096) :
    peekObject (.slice e) ⟨pre ++ ([255, 255, 255, 255] ++ post)⟩ pre.length = .ok (pre.length + 4) none := by
  have hat := at_mk pre [255, 255, 255, 255] post (by simpa using h)
  have := peekInt32_at (v := -1) hat
  generalize (⟨pre ++ ([255, 255, 255, 255] ++ post)⟩ : Reader) = r at this ⊢
  simp [peekObject, peekObjectWorker, peekObjectVarArray, this, peekObjectFixedArray]

/-! ### C10 -/

/-- **C10** determinism: the bytes do not depend on the iteration order of the map. -/
theorem C10_tags_order_independent (tags tags' : TagMap) (hp : tags.Perm tags') (hn : (GoMap.keys tags).Nodup) :
    encodeTags tags = encodeTags tags' := encodeTags_perm hp hn

/-- **C10** round trip: reading the section back (all fields unknown) yields, in ascending order, exactly the tag numbers of
the map, each with the encoded bytes of its value. Missing for the full statement: numbers that do not fit into 32 bits, for which it is false (`C10_false`), and sections
that do not fit into the buffer of 4096 bytes. -/
theorem C10_tags_round_trip_partial (tags : TagMap) (b : Bytes) (hn : (GoMap.keys tags).Nodup)
    (hr : ∀ id ∈ GoMap.keys tags, 0 ≤ id ∧ id < 2 ^ 32) (he : encodeTags tags = some b) (pre post : Bytes)
    (hl : pre.length + b.length ≤ 4096) :
    ∃ es, peekTags ⟨pre ++ (b ++ post)⟩ pre.length [] = .ok (pre.length + b.length) es ∧
      (GoMap.keys es).Pairwise (· < ·) ∧ (∀ id, id ∈ GoMap.keys es ↔ id ∈ GoMap.keys tags) ∧
      ∀ (id : Int) (t : Ty) (v : t.den), GoMap.get tags id = some ⟨t, v⟩ →
        ∃ body, encodeObject t v = some body ∧ GoMap.get es id = some (.raw body) := by
  unfold encodeTags at he
  simp only [Option.pure_def, Option.bind_eq_bind, Option.bind_eq_some_iff] at he
  obtain ⟨body, hb, he⟩ := he
  injection he with he
  have hat := at_mk pre b post hl
  rw [← he] at hat
  obtain ⟨h1, h2⟩ := hat.append
  have hperm := List.mergeSort_perm (GoMap.keys tags) (fun a b : Int => decide (a ≤ b))
  have hlen : ((GoMap.keys tags).mergeSort (· ≤ ·)).length = tags.length := by
    rw [hperm.length_eq]; simp [GoMap.keys]
  have hsmall : tags.length < 2 ^ 32 := by
    have := encodeTagIds_length hb
    rw [hlen] at this
    have : body.length ≤ b.length := by rw [← he]; simp
    omega
  have hnd := hperm.nodup_iff.2 hn
  obtain ⟨es, h3, h4⟩ := peekTagsLoop_at hb hnd
    (fun id hid => hr id (hperm.mem_iff.1 hid)) h2 [] (by simp)
  obtain ⟨h5, h6⟩ := tagEntries_spec h3
  refine ⟨es, ?_, ?_, ?_, ?_⟩
  · rw [peekTags, ← he, peekVarUint_at h1]
    simp only [Res.bind_ok, BitVec.toNat_ofNat, Nat.mod_eq_of_lt hsmall]
    rw [hlen] at h4
    rw [h4]
    simp only [List.nil_append, List.length_append, Nat.add_assoc]
  · rw [h5]
    have := sortInts_pairwise (GoMap.keys tags)
    refine (this.and hnd).imp ?_
    intro a b h; omega
  · intro id; rw [h5, hperm.mem_iff]
  · intro id t v hg
    have hmem : id ∈ GoMap.keys tags := by rw [GoMap.mem_keys_iff, hg]; rfl
    have hmem' : id ∈ (GoMap.keys tags).mergeSort (· ≤ ·) := hperm.mem_iff.2 hmem
    have h7 := h6 id
    rw [if_pos hmem', hg] at h7
    have hsome : (GoMap.get es id).isSome := by
      rw [← GoMap.mem_keys_iff, h5]; exact hmem'
    simp only [Option.bind_some] at h7
    cases hbd : encodeObject t v with
    | none => rw [hbd] at h7; simp at h7; rw [h7] at hsome; cases hsome
    | some body => exact ⟨body, rfl, by rw [h7, hbd]; rfl⟩

/-- A two-tag map meeting the hypotheses, in both iteration orders. -/
example : encodeTags [(5, ⟨.int16, (7 : I16)⟩), (2, ⟨.bool, true⟩)] = some [2, 2, 1, 1, 5, 2, 0, 7] ∧
    encodeTags [(2, ⟨.bool, true⟩), (5, ⟨.int16, (7 : I16)⟩)] = some [2, 2, 1, 1, 5, 2, 0, 7] := by
  have h1 : ([5, 2] : List Int).mergeSort (· ≤ ·) = [2, 5] :=
    sorted_perm_eq ((List.mergeSort_perm _ _).trans (List.Perm.swap 2 5 [])) (sortInts_pairwise _) (by decide)
  have h2 : ([2, 5] : List Int).mergeSort (· ≤ ·) = [2, 5] :=
    sorted_perm_eq (List.mergeSort_perm _ _) (sortInts_pairwise _) (by decide)
  have e1 : encodeVarUint 1#32 = [1] := encodeVarUint_small 1 (by decide)
  have e2 : encodeVarUint 2#32 = [2] := encodeVarUint_small 2 (by decide)
  have e5 : encodeVarUint 5#32 = [5] := encodeVarUint_small 5 (by decide)
  constructor <;>
  simp [encodeTags, GoMap.keys, encodeTagIds, GoMap.get, encodeObject, encodeObjectWorker, encodeTag, encodeBool,
    encodeInt16, putBE, h1, h2, e1, e2, e5]

/-- **C10** is false of tag numbers that do not fit into 32 bits: 2^32 is written, without complaint, and read back as 0. -/
theorem C10_false : ∃ b : Bytes, encodeTags [(2 ^ 32, ⟨.bool, true⟩)] = some b ∧ peekTags ⟨b⟩ 0 [] = .ok b.length [(0, .raw [1])] := by
  have e0 : encodeVarUint 0#32 = [0] := encodeVarUint_small 0 (by decide)
  have e1 : encodeVarUint 1#32 = [1] := encodeVarUint_small 1 (by decide)
  have h0 := fun (pre post : Bytes) (h : pre.length + 1 ≤ 4096) => peekVarUint_at (v := 0#32) (by rw [e0]; exact at_mk pre [0] post h)
  have h1 := fun (pre post : Bytes) (h : pre.length + 1 ≤ 4096) => peekVarUint_at (v := 1#32) (by rw [e1]; exact at_mk pre [1] post h)
  refine ⟨[1, 0, 1, 1], ?_, ?_⟩
  · simp [encodeTags, GoMap.keys, encodeTagIds, GoMap.get, encodeObject, encodeObjectWorker, encodeTag, encodeBool, e1, e0]
  · have a := h1 [] [0, 1, 1] (by decide)
    have b := h0 [1] [1, 1] (by decide)
    have c := h1 [1, 0] [1] (by decide)
    rw [e1] at a c
    rw [e0] at b
    simp at a b c
    simp [peekTags, a, peekTagsLoop, b, c, GoMap.get, GoMap.set, Reader.peek, defaultBufSize]

end KM.Props
