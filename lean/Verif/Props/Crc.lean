import Verif.CrcPoly
import Verif.Props.Fetch
import Verif.Writes
/-
Properties C39 and C40: the checksum and the size of delivered records, and C55: the checksum the protocol prescribes.
-/
namespace KM.Props
open KM Spec

/-- The message `m` is part of the Fetch response `resp`. -/
def Delivered (resp : FetchResponse) (m : MessageV1) : Prop := ∃ rt ∈ resp.responses, ∃ rp ∈ rt.partitions, m ∈ rp.records.msgs

/-- A delivered message is a record of some partition's log, labelled with its offset. -/
theorem delivered_ofRecord {q : FetchRequest} {resp : FetchResponse} {w w' : World} {tr : List Ev} (h : Exec w (fetch q) tr w' (.ret resp))
    {m : MessageV1} (hm : Delivered resp m) : ∃ t p i r, (w'.log t p)[i]? = some r ∧ m = MessageV1.ofRecord (BitVec.ofNat 64 i) r := by
  obtain ⟨fds, h1, h2, _⟩ := fetch_ret h
  obtain ⟨rt, hrt, rp, hrp, hm⟩ := hm
  have h3 := fetchRespond_eq h2
  obtain ⟨n, hn⟩ := List.getElem?_of_mem hrt
  obtain ⟨x, _, fd, hfd, _, e2⟩ := forall₂_get h3 hn
  rw [e2, List.mem_map] at hrp
  obtain ⟨par, _, rfl⟩ := hrp
  obtain ⟨src, _, hf⟩ := forall₂_get h1 hfd
  rcases hf with ⟨_, _, h5, _⟩ | ⟨h0, t0, t1, wm, rfl, s0, s1, _, _, h5, _⟩
  · simp only [FetchRespPartition.of, h5] at hm; cases hm
  · simp only [FetchRespPartition.of, h5] at hm
    rw [List.mem_mapIdx] at hm
    obtain ⟨i, hi, rfl⟩ := hm
    rw [List.getElem_drop]
    rw [List.length_drop] at hi
    refine ⟨src.1, src.2.partition, src.2.fetchOffset.toInt.toNat + i,
      (wm.log src.1 src.2.partition)[src.2.fetchOffset.toInt.toNat + i]'(by omega), ?_, ?_⟩
    · rw [s1.log, List.getElem?_append_left (by omega)]
      exact List.getElem?_eq_getElem (by omega)
    · congr 1
      rw [BitVec.ofNat_add]
      congr 1
      apply BitVec.eq_of_toInt_eq
      rw [← BitVec.ofInt_natCast, BitVec.toInt_ofInt, Int.toNat_of_nonneg h0]
      have := BitVec.toInt_lt (x := src.2.fetchOffset)
      rw [Int.bmod_eq_of_le]
      · have : (0 : Int) ≤ src.2.fetchOffset.toInt := h0
        omega
      · omega

/-- The part of a message that follows its checksum. -/
def covered (m : MessageV1) : Bytes :=
  int8 m.magicByte ++ int8 m.attributes ++ Spec.int64 m.timestamp ++ nullableBytes m.key ++ nullableBytes m.value

theorem message1_covered (m : MessageV1) : message1 m = Spec.int64 m.offset ++ Spec.int32 m.messageSize ++ Spec.int32 m.crc ++ covered m := by
  simp only [message1, covered, List.append_assoc]

theorem crc_ofRecord (off : I64) (r : Record) : (MessageV1.ofRecord off r).crc = crcUpdate (covered (MessageV1.ofRecord off r)) := by
  show MessageV1.computeCrc _ = _
  unfold MessageV1.computeCrc
  rw [← message1_eq, message1_covered]
  congr 1

theorem byteBits_injective {a b : UInt8} (h : byteBits a = byteBits b) : a = b := by
  apply UInt8.toNat_inj.1
  apply Nat.eq_of_testBit_eq
  intro i
  by_cases hi : i < 8
  · have : (byteBits a)[i]'(by simp [byteBits]; exact hi) = (byteBits b)[i]'(by simp [byteBits]; exact hi) := by simp [h]
    simpa [byteBits] using this
  · have h1 : 256 ≤ 2 ^ i := by
      calc 256 = 2 ^ 8 := rfl
        _ ≤ 2 ^ i := Nat.pow_le_pow_right (by omega) (by omega)
    rw [Nat.testBit_lt_two_pow (Nat.lt_of_lt_of_le a.toNat_lt h1), Nat.testBit_lt_two_pow (Nat.lt_of_lt_of_le b.toNat_lt h1)]

/-- C39: in every delivered message the checksum field is the CRC-32C of exactly the bytes after it (magic byte to value, a part which
does not contain the offset), and of nothing that differs from them in one byte, or within 32 consecutive bits. -/
theorem C39_checksum {q : FetchRequest} {resp : FetchResponse} {w w' : World} {tr : List Ev} (h : Exec w (fetch q) tr w' (.ret resp))
    {m : MessageV1} (hm : Delivered resp m) :
    message1 m = Spec.int64 m.offset ++ Spec.int32 m.messageSize ++ Spec.int32 m.crc ++ covered m ∧
    IsCrc crc32c (covered m) m.crc ∧
    (∀ c, IsCrc crc32c (covered m) c → c = m.crc) ∧
    (∀ i (hi : i < (covered m).length) (b : UInt8), b ≠ (covered m)[i] → ¬ IsCrc crc32c ((covered m).set i b) m.crc) ∧
    (∀ (bad : Bytes) (pre x y post : List Bool), bits (covered m) = pre ++ x ++ post → bits bad = pre ++ y ++ post →
      x.length = y.length → x.length ≤ 32 → x ≠ y → ¬ IsCrc crc32c bad m.crc) := by
  obtain ⟨t, p, i, r, _, rfl⟩ := delivered_ofRecord h hm
  have h0 : IsCrc crc32c (covered (MessageV1.ofRecord (BitVec.ofNat 64 i) r)) (MessageV1.ofRecord (BitVec.ofNat 64 i) r).crc := by
    rw [crc_ofRecord]; exact crcUpdate_isCrc _
  generalize MessageV1.ofRecord (BitVec.ofNat 64 i) r = m at *
  refine ⟨message1_covered m, h0, fun c hc => isCrc_unique crc32c_degree hc h0, ?_, ?_⟩
  · intro i hi b hb
    refine isCrc_burst (pre := bits ((covered m).take i)) (b := byteBits (covered m)[i]) (b' := byteBits b)
      (post := bits ((covered m).drop (i + 1))) crc32c_degree crc32c_coprime ?_ ?_ ?_ ?_ ?_ h0
    · have : covered m = (covered m).take i ++ (covered m)[i] :: (covered m).drop (i + 1) := by simp
      rw [congrArg bits this, bits_append]
      simp only [bits, List.flatMap_cons, List.append_assoc]
    · rw [List.set_eq_take_append_cons_drop, if_pos hi, bits_append]
      simp [bits]
    · simp [byteBits_length]
    · simp [byteBits_length]
    · exact fun he => hb (byteBits_injective he).symm
  · intro bad pre x y post h1 h2 h3 h4 h5
    exact isCrc_burst crc32c_degree crc32c_coprime h1 h2 h3 h4 h5 h0

/-- C39: the checksum does not depend on the offset: records with the same timestamp, key and value carry the same checksum
in whatever responses and at whatever offsets they are delivered. -/
theorem C39_offset_independent {q₁ q₂ : FetchRequest} {resp₁ resp₂ : FetchResponse} {w₁ w₁' w₂ w₂' : World} {tr₁ tr₂ : List Ev}
    (h₁ : Exec w₁ (fetch q₁) tr₁ w₁' (.ret resp₁)) (h₂ : Exec w₂ (fetch q₂) tr₂ w₂' (.ret resp₂))
    {m₁ m₂ : MessageV1} (hm₁ : Delivered resp₁ m₁) (hm₂ : Delivered resp₂ m₂)
    (ht : m₁.timestamp = m₂.timestamp) (hk : m₁.key = m₂.key) (hv : m₁.value = m₂.value) : m₁.crc = m₂.crc := by
  obtain ⟨_, _, i, r, _, rfl⟩ := delivered_ofRecord h₁ hm₁
  obtain ⟨_, _, j, s, _, rfl⟩ := delivered_ofRecord h₂ hm₂
  rw [crc_ofRecord, crc_ofRecord]
  unfold covered
  rw [ht, hk, hv]
  rfl

/-- The bytes of a message after its size field. -/
def afterSize (m : MessageV1) : Bytes := Spec.int32 m.crc ++ covered m

theorem nullableBytes_length (b : Option Bytes) : (nullableBytes b).length = 4 + (b.getD []).length := by
  cases b <;> simp [nullableBytes, bytes, Spec.int32]; omega

/-- C40, what the code does: the size field of a delivered record is 12 more than the number of bytes that follow it. Missing for the
full statement: it is false, `C40_false`. -/
theorem C40_size_partial {q : FetchRequest} {resp : FetchResponse} {w w' : World} {tr : List Ev} (h : Exec w (fetch q) tr w' (.ret resp))
    {m : MessageV1} (hm : Delivered resp m) :
    message1 m = Spec.int64 m.offset ++ Spec.int32 m.messageSize ++ afterSize m ∧
    m.messageSize = BitVec.ofNat 32 ((afterSize m).length + 12) := by
  obtain ⟨t, p, i, r, _, rfl⟩ := delivered_ofRecord h hm
  refine ⟨by rw [message1_covered]; simp [afterSize], ?_⟩
  have hl : (afterSize (MessageV1.ofRecord (BitVec.ofNat 64 i) r)).length + 12 = 34 + (r.key.getD []).length + (r.value.getD []).length := by
    simp only [afterSize, covered, List.length_append, nullableBytes_length]
    simp [MessageV1.ofRecord, Spec.int32, Spec.int64, int8]
    omega
  rw [hl]; rfl

/-- C40 is false: no delivered record's size field is the number of bytes that follow it. -/
theorem C40_false {q : FetchRequest} {resp : FetchResponse} {w w' : World} {tr : List Ev} (h : Exec w (fetch q) tr w' (.ret resp))
    {m : MessageV1} (hm : Delivered resp m) : m.messageSize ≠ BitVec.ofNat 32 (afterSize m).length := by
  rw [(C40_size_partial h hm).2]
  intro he
  have := congrArg BitVec.toNat he
  simp only [BitVec.toNat_ofNat] at this
  omega

/-! ### Examples and counterexamples -/

/-- C55 is false: the checksum of a delivered record is not the CRC-32 (IEEE) which the protocol prescribes for messages of format 1. -/
theorem C55_false : ∃ tr w' resp m, Exec exFetchWorld (fetch exFetch) tr w' (.ret resp) ∧ Delivered resp m ∧
    m.magicByte = 1 ∧ ¬ IsCrc crc32ieee (covered m) m.crc := by
  refine ⟨_, _, _, MessageV1.ofRecord 1 ⟨0, 30, none, some [2], []⟩, Prog.run_ret (sch := go 20) rfl,
    ⟨_, List.mem_cons_self .., _, List.mem_cons_self .., List.mem_cons_self ..⟩, rfl, ?_⟩
  intro h
  have := isCrc_unique crc32ieee_degree h (lfsr_isCrc ieee_poly _)
  revert this
  rw [crc_ofRecord]
  decide +kernel

/-- A message that C39 and C40 speak about: 35 bytes, with its checksum. -/
example : ∃ tr w' resp m, Exec exFetchWorld (fetch exFetch) tr w' (.ret resp) ∧ Delivered resp m ∧
    message1 m = [0, 0, 0, 0, 0, 0, 0, 1, 0, 0, 0, 35, 193, 105, 149, 72, 1, 0, 0, 0, 0, 0, 0, 0, 0, 30, 255, 255, 255, 255, 0, 0, 0, 1, 2] := by
  refine ⟨_, _, _, MessageV1.ofRecord 1 ⟨0, 30, none, some [2], []⟩, Prog.run_ret (sch := go 20) rfl,
    ⟨_, List.mem_cons_self .., _, List.mem_cons_self .., List.mem_cons_self ..⟩, ?_⟩
  decide +kernel

/-- The check value of CRC-32C ("123456789"). -/
example : crcUpdate [49, 50, 51, 52, 53, 54, 55, 56, 57] = 0xe3069283#32 := by decide +kernel

/-- The check value of CRC-32. -/
example : lfsr ieee [49, 50, 51, 52, 53, 54, 55, 56, 57] = 0xcbf43926#32 := by decide +kernel

end KM.Props
