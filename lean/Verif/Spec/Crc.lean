import Verif.Go.Bytes
import Mathlib.Algebra.Polynomial.Basic
import Mathlib.Algebra.Polynomial.Degree.Lemmas
import Mathlib.Data.ZMod.Basic
/-
What a CRC-32 is, independently of the model: bits are read as polynomials over the field with two elements; the checksum makes the
message, followed by the complement of the checksum, divisible by the generator after the first 32 bits have been inverted.
-/
namespace KM.Spec
open Polynomial

/-- The bits of a byte in the order of transmission (least significant first). -/
def byteBits (b : UInt8) : List Bool := (List.range 8).map b.toNat.testBit

/-- The bits of a message. -/
def bits (m : Bytes) : List Bool := m.flatMap byteBits

/-- The bits of a checksum register, least significant first. -/
def wordBits (c : BitVec 32) : List Bool := (List.range 32).map c.getLsbD

/-- The polynomial with these coefficients, highest power first. -/
noncomputable def poly : List Bool → (ZMod 2)[X]
  | [] => 0
  | b :: bs => (if b then X ^ bs.length else 0) + poly bs

/-- The generator of CRC-32C (Castagnoli), 0x1EDC6F41. -/
noncomputable def crc32c : (ZMod 2)[X] :=
  X^32 + X^28 + X^27 + X^26 + X^25 + X^23 + X^22 + X^20 + X^19 + X^18 + X^14 + X^13 + X^11 + X^10 + X^9 + X^8 + X^6 + 1

/-- The generator of CRC-32 (IEEE 802.3), 0x04C11DB7. -/
noncomputable def crc32ieee : (ZMod 2)[X] :=
  X^32 + X^26 + X^23 + X^22 + X^16 + X^12 + X^11 + X^10 + X^8 + X^7 + X^5 + X^4 + X^2 + X + 1

/-- `c` is the checksum of `m` with generator `g`: the message followed by the complemented checksum, its first 32 bits inverted, is
a multiple of `g`. -/
def IsCrc (g : (ZMod 2)[X]) (m : Bytes) (c : BitVec 32) : Prop :=
  g ∣ poly (bits m ++ wordBits (~~~ c)) + poly (List.replicate 32 true) * X ^ (bits m).length

end KM.Spec
