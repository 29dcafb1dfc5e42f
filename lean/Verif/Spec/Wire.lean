import Verif.Go.Bytes
/-
Independent statements of the number formats of the Kafka protocol: big-endian two's complement,
base-128 variable-length numbers (least significant group first) and zigzag. Does not refer to the model.
-/
namespace KM.Spec

/-- Base-256 value, most significant byte first. -/
def be : Bytes → Nat
  | [] => 0
  | b :: bs => b.toNat * 256 ^ bs.length + be bs

/-- Two's complement reading of a `bits`-bit number. -/
def signed (bits : Nat) (n : Nat) : Int := if n < 2 ^ (bits - 1) then n else (n : Int) - 2 ^ bits

/-- Base-128 value, least significant group first; bit 7 of each byte is a flag. -/
def leb128 : Bytes → Nat
  | [] => 0
  | b :: bs => b.toNat % 128 + 128 * leb128 bs

/-- Number of 7-bit groups of a number (at least one). -/
def groups (n : Nat) : Nat := if n < 128 then 1 else 1 + groups (n / 128)

/-- Zigzag: 0, -1, 1, -2, 2, ... ↦ 0, 1, 2, 3, 4, ... -/
def zigzag (i : Int) : Nat := if 0 ≤ i then 2 * i.toNat else 2 * (-i).toNat - 1

/-- A well-terminated variable-length number: all bytes but the last have bit 7 set, the last has not. -/
def Terminated (b : Bytes) : Prop := ∃ init last, b = init ++ [last] ∧ (∀ x ∈ init, 128 ≤ x.toNat) ∧ last.toNat < 128

end KM.Spec
