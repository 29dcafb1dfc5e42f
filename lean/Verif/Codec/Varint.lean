import Verif.Codec.Res
/-
Variable-length integers: /repo/encoder.go:303-363 and /repo/decoder.go:41-70, 94-122.
The 32-bit and 64-bit Go functions are textually identical up to the width; both are instances of one
definition over `BitVec w`, with the bit operations of the source.
-/
namespace KM

/-- `makeVarUint` (/repo/encoder.go:308-322, `w = 32`) and `makeVarUint64` (329-343, `w = 64`). The
bytes are appended in the order produced. Termination of the Go loop is proved here. -/
def makeVarU {w : Nat} (v : BitVec w) : Bytes :=
  let by_ : UInt8 := UInt8.ofNat (v &&& BitVec.ofNat w 0x7F).toNat
  if _h : v.toNat > 0x7F then
    (by_ ||| 0x80) :: makeVarU (v >>> 7)
  else
    [by_]
termination_by v.toNat
decreasing_by
  simp only [BitVec.toNat_ushiftRight, Nat.shiftRight_eq_div_pow]
  exact Nat.div_lt_self (by omega) (by decide)

/-- /repo/encoder.go:308-322 -/
def makeVarUint (v : BitVec 32) : Bytes := makeVarU v
/-- /repo/encoder.go:329-343 -/
def makeVarUint64 (v : BitVec 64) : Bytes := makeVarU v

/-- `n = (n << 1) ^ (n >> 31)` resp. `>> 63` (/repo/encoder.go:304, 325); `>>` on a signed Go integer
is the arithmetic shift. -/
def zigzag {w : Nat} (n : BitVec w) : BitVec w := (n <<< 1) ^^^ (n.sshiftRight (w - 1))

/-- /repo/encoder.go:303-306 -/
def makeZigzag32 (n : BitVec 32) : Bytes := makeVarUint (zigzag n)
/-- /repo/encoder.go:324-327 -/
def makeZigzag64 (n : BitVec 64) : Bytes := makeVarUint64 (zigzag n)

/-- The loop of `peekVarUint`/`peekVarUint64` (/repo/decoder.go:45-59, 107-121). -/
def peekVarULoop {w : Nat} (inbound : Bytes) (next shift : Nat) (varuint : BitVec w) : Res (BitVec w) :=
  if h : next < inbound.length then
    let by_ := inbound[next]
    let varuint := varuint ||| (BitVec.ofNat w (by_ &&& 0x7F).toNat <<< shift)
    if by_ &&& 0x80 == 0 then .ok (next + 1) varuint
    else peekVarULoop inbound (next + 1) (shift + 7) varuint
  else .short
termination_by inbound.length - next

/-- /repo/decoder.go:41-60 -/
def peekVarUint (r : Reader) (offset : Nat) : Res (BitVec 32) :=
  peekVarULoop (r.peek (offset + 5)).1 offset 0 0

/-- /repo/decoder.go:103-122 -/
def peekVarUint64 (r : Reader) (offset : Nat) : Res (BitVec 64) :=
  peekVarULoop (r.peek (offset + 10)).1 offset 0 0

/-- `(varuint >> 1) ^ (-(varuint & 1))` (/repo/decoder.go:68, 99). -/
def unzigzag {w : Nat} (u : BitVec w) : BitVec w := (u >>> 1) ^^^ (-(u &&& 1))

/-- /repo/decoder.go:62-70 -/
def peekVarInt (r : Reader) (offset : Nat) : Res (BitVec 32) := (peekVarUint r offset).map unzigzag

/-- /repo/decoder.go:94-101 -/
def peekVarInt64 (r : Reader) (offset : Nat) : Res (BitVec 64) := (peekVarUint64 r offset).map unzigzag

/-! ### Lemmas -/

theorem and_7f_toNat {w : Nat} (hw : 7 ≤ w) (v : BitVec w) :
    (v &&& BitVec.ofNat w 0x7F).toNat = v.toNat % 128 := by
  have h : (127 : Nat) < 2 ^ w := Nat.lt_of_lt_of_le (by decide : 127 < 2 ^ 7) (Nat.pow_le_pow_right (by decide) hw)
  rw [BitVec.toNat_and, BitVec.toNat_ofNat, Nat.mod_eq_of_lt h]
  exact Nat.and_two_pow_sub_one_eq_mod _ 7

theorem byte_or80 : ∀ n < 128, UInt8.ofNat n ||| 0x80 = UInt8.ofNat (n + 128) := by decide +kernel
theorem byte_and80 : ∀ n < 128, (UInt8.ofNat (n + 128) &&& 0x80 == 0) = false := by decide +kernel
theorem byte_and80' : ∀ n < 128, (UInt8.ofNat n &&& 0x80 == 0) = true := by decide +kernel
theorem byte_and7f : ∀ n < 128, (UInt8.ofNat (n + 128) &&& 0x7F).toNat = n := by decide +kernel
theorem byte_and7f' : ∀ n < 128, (UInt8.ofNat n &&& 0x7F).toNat = n := by decide +kernel

/-- Group-wise description of the encoding. -/
theorem makeVarU_eq {w : Nat} (hw : 7 ≤ w) (v : BitVec w) :
    makeVarU v = if v.toNat < 128 then [UInt8.ofNat v.toNat]
      else UInt8.ofNat (v.toNat % 128 + 128) :: makeVarU (v >>> 7) := by
  rw [makeVarU]
  simp only [and_7f_toNat hw]
  have hm : v.toNat % 128 < 128 := Nat.mod_lt _ (by decide)
  by_cases h : v.toNat < 128
  · rw [dif_neg (by omega), if_pos h, Nat.mod_eq_of_lt h]
  · rw [dif_pos (by omega), if_neg h, byte_or80 _ hm]

theorem makeVarU_ne_nil {w : Nat} (v : BitVec w) : makeVarU v ≠ [] := by
  rw [makeVarU]; split <;> simp

theorem makeVarU_length_le {w : Nat} (hw : 7 ≤ w) (v : BitVec w) (k : Nat) (h : v.toNat < 2 ^ (7 * k)) :
    (makeVarU v).length ≤ max 1 k := by
  induction k generalizing v with
  | zero =>
    rw [makeVarU_eq hw, if_pos (by rw [Nat.mul_zero, Nat.pow_zero] at h; omega)]
    simp
  | succ k ih =>
    rw [makeVarU_eq hw]
    split
    · simp
    · next hv =>
      have h2 : (v >>> 7).toNat < 2 ^ (7 * k) := by
        rw [BitVec.toNat_ushiftRight, Nat.shiftRight_eq_div_pow]
        rw [Nat.div_lt_iff_lt_mul (by decide), ← Nat.pow_add]
        rwa [Nat.mul_succ] at h
      have := ih _ h2
      have hk : k ≠ 0 := by
        rintro rfl
        have : v.toNat < 128 := by simpa using h
        exact hv this
      simp only [List.length_cons]
      omega

theorem makeVarUint_length (v : BitVec 32) : (makeVarUint v).length ≤ 5 := by
  have := makeVarU_length_le (by decide) v 5 (Nat.lt_trans v.isLt (by decide))
  simpa [makeVarUint] using this

theorem makeVarUint64_length (v : BitVec 64) : (makeVarUint64 v).length ≤ 10 := by
  have := makeVarU_length_le (by decide) v 10 (Nat.lt_trans v.isLt (by decide))
  simpa [makeVarUint64] using this

theorem peekVarULoop_cons {w : Nat} (pre : Bytes) (b : UInt8) (post : Bytes) (shift : Nat) (acc : BitVec w) :
    peekVarULoop (pre ++ b :: post) pre.length shift acc =
      if b &&& 0x80 == 0 then .ok (pre.length + 1) (acc ||| (BitVec.ofNat w (b &&& 0x7F).toNat <<< shift))
      else peekVarULoop (pre ++ b :: post) (pre.length + 1) (shift + 7)
        (acc ||| (BitVec.ofNat w (b &&& 0x7F).toNat <<< shift)) := by
  rw [peekVarULoop, dif_pos (by simp)]
  have : (pre ++ b :: post)[pre.length]'(by simp) = b := by simp
  simp only [this]

/-- The decoding loop undoes the encoding, in any context. -/
theorem peekVarULoop_make {w : Nat} (hw : 7 ≤ w) (v : BitVec w) (pre post : Bytes) (shift : Nat)
    (acc : BitVec w) (hacc : acc.toNat < 2 ^ shift) (hv : v.toNat * 2 ^ shift < 2 ^ w) :
    ∃ u : BitVec w, peekVarULoop (pre ++ (makeVarU v ++ post)) pre.length shift acc
        = .ok (pre.length + (makeVarU v).length) u ∧ u.toNat = acc.toNat + v.toNat * 2 ^ shift := by
  induction hn : v.toNat using Nat.strongRecOn generalizing v pre shift acc with
  | ind n ih =>
    subst hn
    have key : ∀ x : Nat, x < 128 → x * 2 ^ shift < 2 ^ w →
        (acc ||| (BitVec.ofNat w x <<< shift)).toNat = acc.toNat + x * 2 ^ shift := by
      intro x hx hlt
      have hxw : x < 2 ^ w := Nat.lt_of_lt_of_le hx
        (Nat.le_trans (by decide : 128 ≤ 2 ^ 7) (Nat.pow_le_pow_right (by decide) hw))
      rw [BitVec.toNat_or, BitVec.toNat_shiftLeft, BitVec.toNat_ofNat, Nat.mod_eq_of_lt hxw,
        Nat.shiftLeft_eq, Nat.mod_eq_of_lt hlt, Nat.or_comm, ← Nat.shiftLeft_eq,
        ← Nat.shiftLeft_add_eq_or_of_lt hacc]
      omega
    rw [makeVarU_eq hw v]
    by_cases h : v.toNat < 128
    · rw [if_pos h]
      refine ⟨acc ||| (BitVec.ofNat w v.toNat <<< shift), ?_, key _ h hv⟩
      rw [List.singleton_append, peekVarULoop_cons, if_pos (byte_and80' _ h), byte_and7f' _ h]
      rfl
    · rw [if_neg h]
      have hm : v.toNat % 128 < 128 := Nat.mod_lt _ (by decide)
      have hs : (v >>> 7).toNat = v.toNat / 128 := by
        rw [BitVec.toNat_ushiftRight, Nat.shiftRight_eq_div_pow]
      have hsplit : v.toNat = v.toNat % 128 + v.toNat / 128 * 128 := by omega
      have hpow : 2 ^ (shift + 7) = 2 ^ shift * 128 := by rw [Nat.pow_add]
      have hlo : v.toNat % 128 * 2 ^ shift < 2 ^ w :=
        Nat.lt_of_le_of_lt (Nat.mul_le_mul_right _ (Nat.mod_le _ _)) hv
      have hacc' := key _ hm hlo
      have hb : (acc ||| (BitVec.ofNat w (v.toNat % 128) <<< shift)).toNat < 2 ^ (shift + 7) := by
        rw [hacc', hpow]
        have : v.toNat % 128 * 2 ^ shift ≤ 127 * 2 ^ shift := Nat.mul_le_mul_right _ (by omega)
        omega
      have hmul : v.toNat / 128 * 2 ^ (shift + 7) = v.toNat / 128 * 128 * 2 ^ shift := by
        rw [hpow, Nat.mul_comm (2 ^ shift), Nat.mul_assoc]
      have hv' : (v >>> 7).toNat * 2 ^ (shift + 7) < 2 ^ w := by
        rw [hs, hmul]
        exact Nat.lt_of_le_of_lt (Nat.mul_le_mul_right _ (by omega)) hv
      obtain ⟨u, hu, hut⟩ := ih (v >>> 7).toNat (by rw [hs]; omega) (v >>> 7)
        (pre ++ [UInt8.ofNat (v.toNat % 128 + 128)]) (shift + 7) _ hb hv' rfl
      refine ⟨u, ?_, ?_⟩
      · rw [List.cons_append, peekVarULoop_cons, byte_and80 _ hm, byte_and7f _ hm]
        rw [List.append_assoc, List.singleton_append, List.length_append, List.length_singleton] at hu
        simp only [Bool.false_eq_true, if_false]
        rw [hu, List.length_cons]
        congr 1; omega
      · rw [hut, hacc', hs, hmul, Nat.add_assoc, ← Nat.add_mul, ← hsplit]

/-- Zigzag is inverted by the decoder's formula, for every width and value. -/
theorem unzigzag_zigzag {w : Nat} (hw : 1 < w) (n : BitVec w) : unzigzag (zigzag n) = n := by
  have hbit : ∀ i, i < w → (zigzag n).getLsbD i = ((decide (0 < i) && n.getLsbD (i - 1)) ^^ n.msb) := by
    intro i hi
    simp only [zigzag, BitVec.getLsbD_xor, BitVec.getLsbD_shiftLeft, BitVec.getLsbD_sshiftRight]
    have h1 : ¬ (w ≤ i) := by omega
    have h2 : (decide (w - 1 + i < w) : Bool) = decide (i = 0) := by
      congr 1; simp; omega
    simp only [hi, decide_true, Bool.true_and, h1, decide_false, Bool.not_false]
    by_cases h0 : i = 0
    · subst h0
      simp [BitVec.msb_eq_getLsbD_last]
    · have : ¬ (w - 1 + i < w) := by omega
      have h01 : ¬ (i < 1) := by omega
      have h00 : 0 < i := by omega
      simp [this, h01, h00]
  have hlow : -(zigzag n &&& 1) = if n.msb then BitVec.allOnes w else 0#w := by
    have h0 := hbit 0 (by omega)
    simp at h0
    have : zigzag n &&& 1 = if n.msb then 1#w else 0#w := by
      apply BitVec.eq_of_getLsbD_eq
      intro i hi
      by_cases hi0 : i = 0
      · subst hi0
        cases hm : n.msb <;> simp_all
      · cases hm : n.msb <;> simp [hi0, BitVec.getLsbD_one]
    rw [this]
    cases n.msb
    · simp
    · simp [BitVec.neg_one_eq_allOnes]
  apply BitVec.eq_of_getLsbD_eq
  intro i hi
  unfold unzigzag
  rw [BitVec.getLsbD_xor, BitVec.getLsbD_ushiftRight, hlow]
  by_cases hl : 1 + i < w
  · rw [hbit _ hl]
    have : 1 + i - 1 = i := by omega
    have h0 : 0 < 1 + i := by omega
    cases hm : n.msb <;> simp [this, hi, h0]
  · have hi' : i = w - 1 := by omega
    have h0 : (zigzag n).getLsbD (1 + i) = false := BitVec.getLsbD_of_ge _ _ (by omega)
    rw [h0]
    have hm : n.msb = n.getLsbD i := by rw [BitVec.msb_eq_getLsbD_last, hi']
    rw [← hm]
    cases h : n.msb <;> simp [hi]

/-! ### Locality of the varint decoders -/

theorem peekVarULoop_ge {w : Nat} (inb : Bytes) (next shift : Nat) (acc : BitVec w) {n : Nat} {v : BitVec w}
    (h : peekVarULoop inb next shift acc = .ok n v) : next < n ∧ n ≤ inb.length := by
  fun_induction peekVarULoop inb next shift acc with
  | case1 next shift acc hlt b acc' hb => injection h; omega
  | case2 next shift acc hlt b acc' hb ih => have := ih h; omega
  | case3 => cases h

theorem peekVarULoop_local {w : Nat} (inb inb' : Bytes) (next shift : Nat) (acc : BitVec w) {n : Nat}
    {v : BitVec w} (h : peekVarULoop inb next shift acc = .ok n v) (hw : inb'.take n = inb.take n) :
    peekVarULoop inb' next shift acc = .ok n v := by
  fun_induction peekVarULoop inb next shift acc with
  | case1 next shift acc hlt b acc' hb =>
    obtain ⟨rfl, rfl⟩ : next + 1 = n ∧ acc' = v := by injection h; exact ⟨‹_›, ‹_›⟩
    have hl : next + 1 ≤ inb'.length := take_eq_length hw (by omega)
    have hget : inb'[next] = inb[next] := by
      have h1 : (inb'.take (next+1))[next]? = (inb.take (next+1))[next]? := by rw [hw]
      rw [List.getElem?_take_of_lt (by omega), List.getElem?_take_of_lt (by omega),
        List.getElem?_eq_getElem (by omega), List.getElem?_eq_getElem (by omega)] at h1
      exact Option.some.inj h1
    rw [peekVarULoop, dif_pos (by omega)]
    simp only [hget]
    rw [if_pos hb]
  | case2 next shift acc hlt b acc' hb ih =>
    have hge := peekVarULoop_ge _ _ _ _ h
    have hl : n ≤ inb'.length := take_eq_length hw (by omega)
    have hget : inb'[next] = inb[next] := by
      have h1 : (inb'.take n)[next]? = (inb.take n)[next]? := by rw [hw]
      rw [List.getElem?_take_of_lt (by omega), List.getElem?_take_of_lt (by omega),
        List.getElem?_eq_getElem (by omega), List.getElem?_eq_getElem (by omega)] at h1
      exact Option.some.inj h1
    rw [peekVarULoop, dif_pos (by omega)]
    simp only [hget]
    rw [if_neg hb]
    exact ih h
  | case3 => cases h

theorem peekVarULoop_ne_panic {w : Nat} (inb : Bytes) (next shift : Nat) (acc : BitVec w) :
    peekVarULoop inb next shift acc ≠ .panic := by
  fun_induction peekVarULoop inb next shift acc with
  | case1 => simp
  | case2 next shift acc hlt b acc' hb ih => exact ih
  | case3 => simp

theorem local_peekVarU {w : Nat} (off k : Nat) :
    Local off (fun r => peekVarULoop (w := w) (r.peek (off + k)).1 off 0 0) where
  ge := by intro r n v h; have := peekVarULoop_ge _ _ _ _ h; omega
  le := by
    intro r n v h _
    have := peekVarULoop_ge _ _ _ _ h
    rw [Reader.peek_eq] at this
    simp only [List.length_take] at this
    omega
  ok := by
    intro r n v h r' hw
    have h1 := peekVarULoop_ge _ _ _ _ h
    rw [Reader.peek_eq] at h h1 ⊢
    simp only [List.length_take] at h1
    refine peekVarULoop_local _ _ _ _ _ h ?_
    rw [List.take_take, List.take_take, Nat.min_eq_left (by omega)]
    exact hw
  panic := by intro r h; exact absurd h (peekVarULoop_ne_panic _ _ _ _)

theorem local_peekVarUint (off : Nat) : Local off (fun r => peekVarUint r off) := local_peekVarU off 5
theorem local_peekVarUint64 (off : Nat) : Local off (fun r => peekVarUint64 r off) := local_peekVarU off 10
theorem local_peekVarInt (off : Nat) : Local off (fun r => peekVarInt r off) :=
  (local_peekVarUint off).map _
theorem local_peekVarInt64 (off : Nat) : Local off (fun r => peekVarInt64 r off) :=
  (local_peekVarUint64 off).map _

/-! ### Round trips in context -/

theorem window_take_ctx {r : Reader} {pre b post : Bytes} (h : r.window = pre ++ (b ++ post)) (k : Nat)
    (hk : b.length ≤ k) : ∃ post', (r.peek (pre.length + k)).1 = pre ++ (b ++ post') := by
  rw [Reader.peek_eq, h]
  refine ⟨post.take (k - b.length), ?_⟩
  simp only [List.take_append]
  rw [List.take_of_length_le (by omega), List.take_of_length_le (by omega)]
  congr 3; omega

theorem peekVarUint_make {r : Reader} {pre post : Bytes} (v : BitVec 32)
    (h : r.window = pre ++ (makeVarUint v ++ post)) :
    peekVarUint r pre.length = .ok (pre.length + (makeVarUint v).length) v := by
  obtain ⟨post', hp⟩ := window_take_ctx h 5 (makeVarUint_length v)
  obtain ⟨u, hu, ht⟩ := peekVarULoop_make (w := 32) (by decide) v pre post' 0 0 (by simp) (by simpa using v.isLt)
  unfold peekVarUint
  rw [hp]
  unfold makeVarUint
  rw [hu, show u = v from BitVec.eq_of_toNat_eq (by simpa using ht)]

theorem peekVarUint64_make {r : Reader} {pre post : Bytes} (v : BitVec 64)
    (h : r.window = pre ++ (makeVarUint64 v ++ post)) :
    peekVarUint64 r pre.length = .ok (pre.length + (makeVarUint64 v).length) v := by
  obtain ⟨post', hp⟩ := window_take_ctx h 10 (makeVarUint64_length v)
  obtain ⟨u, hu, ht⟩ := peekVarULoop_make (w := 64) (by decide) v pre post' 0 0 (by simp) (by simpa using v.isLt)
  unfold peekVarUint64
  rw [hp]
  unfold makeVarUint64
  rw [hu, show u = v from BitVec.eq_of_toNat_eq (by simpa using ht)]

theorem peekVarInt_make {r : Reader} {pre post : Bytes} (v : BitVec 32)
    (h : r.window = pre ++ (makeZigzag32 v ++ post)) :
    peekVarInt r pre.length = .ok (pre.length + (makeZigzag32 v).length) v := by
  unfold peekVarInt
  rw [peekVarUint_make (zigzag v) h]
  simp [unzigzag_zigzag, makeZigzag32]

theorem peekVarInt64_make {r : Reader} {pre post : Bytes} (v : BitVec 64)
    (h : r.window = pre ++ (makeZigzag64 v ++ post)) :
    peekVarInt64 r pre.length = .ok (pre.length + (makeZigzag64 v).length) v := by
  unfold peekVarInt64
  rw [peekVarUint64_make (zigzag v) h]
  simp [unzigzag_zigzag, makeZigzag64]

end KM
