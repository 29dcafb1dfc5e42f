/-
Go byte slices and `encoding/binary.BigEndian` (Go standard library, trusted; used by
/repo/encoder.go:259-301 and /repo/decoder.go:23,274-343, /repo/inbound-utils.go:26).
-/
namespace KM

/-- A Go `[]byte` (contents only; nil-ness and aliasing are modelled where they matter). -/
abbrev Bytes := List UInt8

abbrev I8 := BitVec 8
abbrev I16 := BitVec 16
abbrev I32 := BitVec 32
abbrev I64 := BitVec 64

/-- `binary.BigEndian.PutUintNN` for `k` bytes: most significant byte first. -/
def putBE : (k : Nat) → Nat → Bytes
  | 0, _ => []
  | k + 1, n => UInt8.ofNat (n / 256 ^ k) :: putBE k n

/-- `binary.BigEndian.UintNN`: base-256 value, most significant byte first. -/
def getBE (bs : Bytes) : Nat := bs.foldl (fun a b => a * 256 + b.toNat) 0

@[simp] theorem putBE_length (k n : Nat) : (putBE k n).length = k := by
  induction k with
  | zero => rfl
  | succ k ih => simp [putBE, ih]

theorem getBE_foldl (bs : Bytes) (a : Nat) :
    bs.foldl (fun a b => a * 256 + b.toNat) a = a * 256 ^ bs.length + getBE bs := by
  induction bs generalizing a with
  | nil => simp [getBE]
  | cons b bs ih =>
    simp only [List.foldl_cons, List.length_cons, getBE]
    rw [ih, ih (0 * 256 + b.toNat), Nat.pow_succ, Nat.add_mul, Nat.zero_mul, Nat.zero_add,
      Nat.mul_assoc, Nat.mul_comm 256, Nat.add_assoc]

@[simp] theorem getBE_nil : getBE [] = 0 := rfl

theorem getBE_cons (b : UInt8) (bs : Bytes) :
    getBE (b :: bs) = b.toNat * 256 ^ bs.length + getBE bs := by
  have := getBE_foldl bs (0 * 256 + b.toNat)
  simpa [getBE] using this

theorem getBE_lt (bs : Bytes) : getBE bs < 256 ^ bs.length := by
  induction bs with
  | nil => simp
  | cons b bs ih =>
    rw [getBE_cons, List.length_cons, Nat.pow_succ]
    have hb : b.toNat ≤ 255 := by have := b.toNat_lt; omega
    have := Nat.mul_le_mul_right (256 ^ bs.length) hb
    omega

theorem getBE_putBE (k n : Nat) : getBE (putBE k n) = n % 256 ^ k := by
  induction k with
  | zero => simp [putBE, Nat.mod_one]
  | succ k ih =>
    rw [putBE, getBE_cons, ih, putBE_length, UInt8.toNat_ofNat', show 256 ^ (k + 1) = 256 ^ k * 256 from Nat.pow_succ _ _]
    have h1 : n % (256 ^ k * 256) = n % 256 ^ k + 256 ^ k * (n / 256 ^ k % 256) := Nat.mod_mul
    rw [h1, Nat.mul_comm (n / 256 ^ k % 2 ^ 8)]
    simp only [Nat.reducePow]
    omega

theorem getBE_putBE_of_lt {k n : Nat} (h : n < 256 ^ k) : getBE (putBE k n) = n := by
  rw [getBE_putBE, Nat.mod_eq_of_lt h]

end KM
