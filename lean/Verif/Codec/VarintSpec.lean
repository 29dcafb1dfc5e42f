import Verif.Codec.RoundTrip
import Verif.Spec.Wire
/-! The encodings agree with the independent number formats of `Spec/Wire`. -/
namespace KM

theorem getBE_eq_be (b : Bytes) : getBE b = Spec.be b := by
  induction b with
  | nil => rfl
  | cons x xs ih => rw [getBE_cons, Spec.be, ih]

theorem makeVarU_small {w : Nat} (hw : 7 ≤ w) (v : BitVec w) (h : v.toNat < 128) : makeVarU v = [UInt8.ofNat v.toNat] := by
  rw [makeVarU_eq hw, if_pos h]

theorem encodeVarUint_small (v : BitVec 32) (h : v.toNat < 128) : encodeVarUint v = [UInt8.ofNat v.toNat] :=
  makeVarU_small (by decide) v h

theorem encodeVarInt_small (v : BitVec 32) (h : (zigzag v).toNat < 128) : encodeVarInt v = [UInt8.ofNat (zigzag v).toNat] :=
  makeVarU_small (by decide) _ h

theorem groups_pos (n : Nat) : 0 < Spec.groups n := by
  unfold Spec.groups; split <;> omega

theorem makeVarU_spec {w : Nat} (hw : 7 ≤ w) (v : BitVec w) :
    (makeVarU v).length = Spec.groups v.toNat ∧ Spec.Terminated (makeVarU v) ∧ Spec.leb128 (makeVarU v) = v.toNat := by
  induction hn : v.toNat using Nat.strongRecOn generalizing v with
  | ind n ih =>
    subst hn
    rw [makeVarU_eq hw, Spec.groups]
    by_cases h : v.toNat < 128
    · rw [if_pos h, if_pos h]
      have e : (UInt8.ofNat v.toNat).toNat = v.toNat := by rw [UInt8.toNat_ofNat']; omega
      refine ⟨rfl, ⟨[], UInt8.ofNat v.toNat, rfl, by simp, by omega⟩, ?_⟩
      simp only [Spec.leb128, e]; omega
    · rw [if_neg h, if_neg h]
      have hs : (v >>> 7).toNat = v.toNat / 128 := by
        rw [BitVec.toNat_ushiftRight, Nat.shiftRight_eq_div_pow]
      obtain ⟨h1, ⟨init, last, h2, h3, h4⟩, h5⟩ := ih (v.toNat / 128) (by omega) (v >>> 7) hs
      have e : (UInt8.ofNat (v.toNat % 128 + 128)).toNat = v.toNat % 128 + 128 := by
        rw [UInt8.toNat_ofNat']; omega
      refine ⟨by rw [List.length_cons, h1]; omega,
        ⟨UInt8.ofNat (v.toNat % 128 + 128) :: init, last, by rw [h2]; rfl, ?_, h4⟩, ?_⟩
      · intro x hx
        rcases List.mem_cons.1 hx with rfl | hx
        · omega
        · exact h3 x hx
      · simp only [Spec.leb128, e, h5]; omega

theorem zigzag_toNat {w : Nat} (hw : 1 < w) (v : BitVec w) : (zigzag v).toNat = Spec.zigzag v.toInt := by
  unfold zigzag Spec.zigzag
  have hp : 2 ^ w = 2 * 2 ^ (w - 1) := by
    obtain ⟨k, rfl⟩ : ∃ k, w = k + 1 := ⟨w - 1, by omega⟩
    rw [Nat.add_sub_cancel, show 2 ^ (k + 1) = 2 ^ k * 2 from Nat.pow_succ _ _, Nat.mul_comm]
  have hlt := v.isLt
  have hti := BitVec.toInt_eq_toNat_cond v
  by_cases h : 2 * v.toNat < 2 ^ w
  · have hm : v.msb = false := by rw [BitVec.msb_eq_decide]; simp; omega
    have hz : v.sshiftRight (w - 1) = 0 := by
      rw [BitVec.sshiftRight_eq_of_msb_false hm]
      apply BitVec.eq_of_toNat_eq
      rw [BitVec.toNat_ushiftRight, Nat.shiftRight_eq_div_pow]
      simp; omega
    rw [if_pos h] at hti
    rw [hz, if_pos (by omega), hti]
    simp only [BitVec.ofNat_eq_ofNat, BitVec.xor_zero, BitVec.toNat_shiftLeft, Int.toNat_natCast]
    rw [Nat.shiftLeft_eq, Nat.mod_eq_of_lt (by omega)]; omega
  · have hm : v.msb = true := by rw [BitVec.msb_eq_decide]; simp; omega
    have hz : v.sshiftRight (w - 1) = BitVec.allOnes w := by
      rw [BitVec.sshiftRight_eq_of_msb_true hm]
      have : ~~~v >>> (w - 1) = 0 := by
        apply BitVec.eq_of_toNat_eq
        rw [BitVec.toNat_ushiftRight, Nat.shiftRight_eq_div_pow, BitVec.toNat_not]
        simp; omega
      rw [this]
      simp
    rw [if_neg h] at hti
    rw [hz, if_neg (by omega), hti, BitVec.xor_allOnes, BitVec.toNat_not, BitVec.toNat_shiftLeft, Nat.shiftLeft_eq]
    have : v.toNat * 2 ^ 1 % 2 ^ w = v.toNat * 2 - 2 ^ w := by
      rw [Nat.mod_eq_sub_mod (by omega), Nat.mod_eq_of_lt (by omega), Nat.pow_one]
    rw [this]
    have e : ((2 ^ w : Nat) : Int) = 2 * ((2 ^ (w - 1) : Nat) : Int) := by rw [hp]; simp
    omega

theorem signed_toInt {w : Nat} (hw : 0 < w) (v : BitVec w) : Spec.signed w v.toNat = v.toInt := by
  have hp : 2 ^ w = 2 * 2 ^ (w - 1) := by
    obtain ⟨k, rfl⟩ : ∃ k, w = k + 1 := ⟨w - 1, by omega⟩
    rw [Nat.add_sub_cancel, show 2 ^ (k + 1) = 2 ^ k * 2 from Nat.pow_succ _ _, Nat.mul_comm]
  rw [Spec.signed, BitVec.toInt_eq_toNat_cond]
  by_cases h : v.toNat < 2 ^ (w - 1)
  · rw [if_pos h, if_pos (by omega)]
  · rw [if_neg h, if_neg (by omega)]; simp

end KM
