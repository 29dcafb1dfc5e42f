import Verif.Crc
import Verif.Spec.Crc
import Mathlib.Algebra.CharP.Two
import Mathlib.Algebra.Field.ZMod
import Mathlib.RingTheory.Coprime.Basic
import Mathlib.RingTheory.Coprime.Lemmas
import Mathlib.Tactic.Ring
import Mathlib.Tactic.ComputeDegree
/-
The table algorithm of `hash/crc32` computes the checksum of Spec/Crc.lean, which is unique and detects bursts of errors of up to 32 bits.
-/
namespace KM
open Polynomial Spec

theorem poly_add_self (p : (ZMod 2)[X]) : p + p = 0 := CharTwo.add_self_eq_zero p

theorem poly_append (a b : List Bool) : poly (a ++ b) = poly a * X ^ b.length + poly b := by
  induction a with
  | nil => simp [poly]
  | cons x a ih =>
    simp only [List.cons_append, poly, ih, List.length_append]
    cases x <;> simp <;> ring

theorem poly_replicate_false (n : Nat) : poly (List.replicate n false) = 0 := by
  induction n with
  | zero => rfl
  | succ n ih => simp [List.replicate_succ, poly, ih]

theorem poly_map_xor {ι : Type} (f g : ι → Bool) (l : List ι) :
    poly (l.map fun i => f i ^^ g i) = poly (l.map f) + poly (l.map g) := by
  induction l with
  | nil => simp [poly]
  | cons x l ih =>
    simp only [List.map_cons, poly, ih, List.length_map]
    cases f x <;> cases g x <;> simp
    · ring
    · ring
    · rw [show (X ^ l.length + poly (l.map f) + (X ^ l.length + poly (l.map g)) : (ZMod 2)[X]) =
        (X ^ l.length + X ^ l.length) + (poly (l.map f) + poly (l.map g)) by ring, poly_add_self, zero_add]

/-- The polynomial of a register. -/
noncomputable def wordPoly (c : BitVec 32) : (ZMod 2)[X] := poly (wordBits c)

theorem wordPoly_xor (a b : BitVec 32) : wordPoly (a ^^^ b) = wordPoly a + wordPoly b := by
  unfold wordPoly wordBits
  rw [← poly_map_xor]
  congr 1
  exact List.map_congr_left fun i _ => by simp

theorem wordBits_length (c : BitVec 32) : (wordBits c).length = 32 := by simp [wordBits]

/-- Shifting right by `n` drops the first `n` coefficients. -/
theorem wordBits_shift (c : BitVec 32) (n : Nat) (hn : n ≤ 32) :
    wordBits (c >>> n) = (wordBits c).drop n ++ List.replicate n false := by
  apply List.ext_getElem
  · simp [wordBits]; omega
  · intro i h1 h2
    simp [wordBits] at h1
    rw [List.getElem_append]
    split
    · simp [wordBits]
    · rename_i h
      simp only [List.length_drop, wordBits_length] at h
      rw [List.getElem_replicate]
      simp only [wordBits, List.getElem_map, List.getElem_range, BitVec.getLsbD_ushiftRight]
      apply BitVec.getLsbD_of_ge; omega

theorem wordPoly_split (c : BitVec 32) (n : Nat) :
    wordPoly c = poly ((wordBits c).take n) * X ^ (32 - n) + poly ((wordBits c).drop n) := by
  unfold wordPoly
  conv_lhs => rw [← List.take_append_drop n (wordBits c)]
  rw [poly_append]; simp [wordBits_length]

theorem wordPoly_shift (c : BitVec 32) (n : Nat) (hn : n ≤ 32) :
    wordPoly (c >>> n) = poly ((wordBits c).drop n) * X ^ n := by
  unfold wordPoly
  rw [wordBits_shift c n hn, poly_append, poly_replicate_false]; simp

/-- One step of the table construction with the reversed generator `k`. -/
def lfsrBit (k c : BitVec 32) : BitVec 32 := if c &&& 1#32 = 1#32 then (c >>> 1) ^^^ k else c >>> 1

theorem and_one_iff (c : BitVec 32) : c &&& 1#32 = 1#32 ↔ c.getLsbD 0 = true := by
  constructor
  · intro h
    have : (c &&& 1#32).getLsbD 0 = (1#32).getLsbD 0 := by rw [h]
    simpa using this
  · intro h
    apply BitVec.eq_of_getLsbD_eq
    intro i hi
    rw [BitVec.getLsbD_and]
    cases i with
    | zero => rw [h]; rfl
    | succ i => simp

theorem lfsrBit_poly {k : BitVec 32} {g : (ZMod 2)[X]} (hk : X ^ 32 + wordPoly k = g) (c : BitVec 32) :
    g ∣ wordPoly (lfsrBit k c) + X * wordPoly c := by
  have hs := wordPoly_split c 1
  have ht : (wordBits c).take 1 = [c.getLsbD 0] := by simp [wordBits, List.range_succ_eq_map]
  rw [ht] at hs
  unfold lfsrBit
  split <;> rename_i h
  · rw [and_one_iff] at h
    rw [wordPoly_xor, wordPoly_shift c 1 (by omega), hs, h]
    refine ⟨1, ?_⟩
    simp only [poly, List.length_nil]
    rw [← hk]
    rw [show (poly ((wordBits c).drop 1) * X ^ 1 + wordPoly k + X * (((if True then X ^ 0 else 0) + 0) * X ^ (32 - 1) +
        poly ((wordBits c).drop 1)) : (ZMod 2)[X]) = (poly ((wordBits c).drop 1) * X + poly ((wordBits c).drop 1) * X) + (X ^ 32 + wordPoly k)
      by simp; ring, poly_add_self]
    simp
  · rw [and_one_iff] at h
    simp only [Bool.not_eq_true] at h
    rw [wordPoly_shift c 1 (by omega), hs, h]
    refine ⟨0, ?_⟩
    simp only [poly]
    rw [show (poly ((wordBits c).drop 1) * X ^ 1 + X * (((if false = true then X ^ ([] : List Bool).length else 0) + 0) * X ^ (32 - 1) +
        poly ((wordBits c).drop 1)) : (ZMod 2)[X]) = poly ((wordBits c).drop 1) * X + poly ((wordBits c).drop 1) * X by simp; ring, poly_add_self]
    simp

theorem dvd_chain {g a b c : (ZMod 2)[X]} (n : Nat) (h1 : g ∣ a + X * b) (h2 : g ∣ b + X ^ n * c) : g ∣ a + X ^ (n + 1) * c := by
  have := dvd_add h1 (Dvd.dvd.mul_left h2 X)
  rw [show a + X * b + X * (b + X ^ n * c) = a + X ^ (n + 1) * c + (X * b + X * b) by ring, poly_add_self, add_zero] at this
  exact this

/-- The table with the reversed generator `k`. -/
def lfsrTable (k : BitVec 32) (i : BitVec 8) : BitVec 32 :=
  lfsrBit k (lfsrBit k (lfsrBit k (lfsrBit k (lfsrBit k (lfsrBit k (lfsrBit k (lfsrBit k (i.setWidth 32))))))))

theorem lfsrTable_poly {k : BitVec 32} {g : (ZMod 2)[X]} (hk : X ^ 32 + wordPoly k = g) (i : BitVec 8) :
    g ∣ wordPoly (lfsrTable k i) + X ^ 8 * wordPoly (i.setWidth 32) := by
  unfold lfsrTable
  have h := lfsrBit_poly hk
  have h1 : g ∣ wordPoly (lfsrBit k (i.setWidth 32)) + X ^ 1 * wordPoly (i.setWidth 32) := by rw [pow_one]; exact h _
  exact dvd_chain 7 (h _) (dvd_chain 6 (h _) (dvd_chain 5 (h _) (dvd_chain 4 (h _) (dvd_chain 3 (h _) (dvd_chain 2 (h _) (dvd_chain 1 (h _) h1))))))

def lfsrStep (k c : BitVec 32) (v : UInt8) : BitVec 32 := lfsrTable k (c.setWidth 8 ^^^ v.toBitVec) ^^^ (c >>> 8)

theorem byteBits_length (b : UInt8) : (byteBits b).length = 8 := by simp [byteBits]

/-- The register of a byte: its bits, then 24 zeroes. -/
theorem wordPoly_byte (c : BitVec 32) (v : UInt8) : wordPoly ((c.setWidth 8 ^^^ v.toBitVec).setWidth 32) =
    (poly ((wordBits c).take 8) + poly (byteBits v)) * X ^ 24 := by
  have h1 : wordBits ((c.setWidth 8 ^^^ v.toBitVec).setWidth 32) =
      ((List.range 8).map fun i => c.getLsbD i ^^ v.toNat.testBit i) ++ List.replicate 24 false := by
    apply List.ext_getElem
    · simp [wordBits]
    · intro i hi _
      simp [wordBits] at hi
      rw [List.getElem_append]
      split
      · rename_i h
        simp at h
        simp only [wordBits, List.getElem_map, List.getElem_range, BitVec.getLsbD_setWidth, BitVec.getLsbD_xor]
        simp [h]
        have : i < 32 := by omega
        simp [this]
        rfl
      · rename_i h
        simp at h
        simp only [wordBits, List.getElem_map, List.getElem_range, BitVec.getLsbD_setWidth, BitVec.getLsbD_xor]
        have : ¬ i < 8 := by omega
        rw [List.getElem_replicate, BitVec.getLsbD_of_ge v.toBitVec i (by omega)]
        simp [this]
  unfold wordPoly
  rw [h1, poly_append, poly_replicate_false, add_zero, List.length_replicate, poly_map_xor]
  have : (List.range 8).map c.getLsbD = (wordBits c).take 8 := by apply List.ext_getElem <;> simp [wordBits]
  rw [this]; rfl

theorem lfsrStep_poly {k : BitVec 32} {g : (ZMod 2)[X]} (hk : X ^ 32 + wordPoly k = g) (c : BitVec 32) (v : UInt8) :
    g ∣ wordPoly (lfsrStep k c v) + X ^ 8 * wordPoly c + poly (byteBits v) * X ^ 32 := by
  unfold lfsrStep
  rw [wordPoly_xor, wordPoly_shift c 8 (by omega), wordPoly_split c 8]
  have h := lfsrTable_poly hk (c.setWidth 8 ^^^ v.toBitVec)
  rw [wordPoly_byte] at h
  generalize wordPoly (lfsrTable k (c.setWidth 8 ^^^ v.toBitVec)) = t at *
  generalize poly ((wordBits c).take 8) = a at *
  generalize poly ((wordBits c).drop 8) = b at *
  generalize poly (byteBits v) = d at *
  rw [show t + b * X ^ 8 + X ^ 8 * (a * X ^ (32 - 8) + b) + d * X ^ 32 = t + X ^ 8 * ((a + d) * X ^ 24) + (b * X ^ 8 + b * X ^ 8) by
    simp; ring, poly_add_self, add_zero]
  exact h

theorem bits_append (a b : Bytes) : bits (a ++ b) = bits a ++ bits b := by simp [bits]
theorem bits_length (m : Bytes) : (bits m).length = 8 * m.length := by
  induction m with
  | nil => rfl
  | cons b m ih => simp only [bits, List.flatMap_cons, List.length_append, byteBits_length, List.length_cons] at *; omega

theorem lfsr_fold_poly {k : BitVec 32} {g : (ZMod 2)[X]} (hk : X ^ 32 + wordPoly k = g) (m : Bytes) (c : BitVec 32) :
    g ∣ wordPoly (m.foldl (lfsrStep k) c) + X ^ (bits m).length * wordPoly c + poly (bits m) * X ^ 32 := by
  induction m generalizing c with
  | nil => simp [bits, poly, poly_add_self]
  | cons v m ih =>
    have h1 := ih (lfsrStep k c v)
    have h2 := Dvd.dvd.mul_left (lfsrStep_poly hk c v) (X ^ (bits m).length)
    have h3 := dvd_add h1 h2
    have hb : bits (v :: m) = byteBits v ++ bits m := by simp [bits]
    rw [List.foldl_cons, hb, poly_append, List.length_append, byteBits_length]
    generalize wordPoly (m.foldl (lfsrStep k) (lfsrStep k c v)) = t at *
    generalize wordPoly (lfsrStep k c v) = s at *
    generalize (bits m).length = n at *
    generalize poly (bits m) = p at *
    generalize poly (byteBits v) = d at *
    generalize wordPoly c = r at *
    rw [show t + X ^ n * s + p * X ^ 32 + X ^ n * (s + X ^ 8 * r + d * X ^ 32) =
      t + X ^ (8 + n) * r + (d * X ^ n + p) * X ^ 32 + (X ^ n * s + X ^ n * s) by ring, poly_add_self, add_zero] at h3
    exact h3

/-- `crc32.Update(0, table, m)` for the table of `k`. -/
def lfsr (k : BitVec 32) (m : Bytes) : BitVec 32 := ~~~ (m.foldl (lfsrStep k) (~~~ 0#32))

theorem lfsr_isCrc {k : BitVec 32} {g : (ZMod 2)[X]} (hk : X ^ 32 + wordPoly k = g) (m : Bytes) : IsCrc g m (lfsr k m) := by
  unfold IsCrc lfsr
  rw [BitVec.not_not, poly_append, wordBits_length]
  have h := lfsr_fold_poly hk m (~~~ 0#32)
  have h1 : wordPoly (~~~ 0#32) = poly (List.replicate 32 true) := by
    unfold wordPoly; rfl
  rw [h1] at h
  have e : poly (bits m) * X ^ 32 + poly (wordBits (List.foldl (lfsrStep k) (~~~ 0#32) m)) + poly (List.replicate 32 true) * X ^ (bits m).length =
    wordPoly (List.foldl (lfsrStep k) (~~~ 0#32) m) + X ^ (bits m).length * poly (List.replicate 32 true) + poly (bits m) * X ^ 32 := by
    unfold wordPoly; ring
  rw [e]; exact h

theorem poly_degree (l : List Bool) : (poly l).degree < l.length := by
  induction l with
  | nil => simp only [poly, degree_zero]; exact WithBot.bot_lt_coe _
  | cons b l ih =>
    simp only [poly, List.length_cons]
    have h1 : (poly l).degree < ((l.length + 1 : Nat) : WithBot Nat) := lt_trans ih (by exact_mod_cast Nat.lt_succ_self _)
    refine lt_of_le_of_lt (degree_add_le _ _) (max_lt ?_ h1)
    cases b
    · simp only [Bool.false_eq_true, if_false, degree_zero]; exact WithBot.bot_lt_coe _
    · simp only [if_true, degree_X_pow]; exact_mod_cast Nat.lt_succ_self _

theorem poly_injective {a b : List Bool} (hl : a.length = b.length) (h : poly a = poly b) : a = b := by
  induction a generalizing b with
  | nil => cases b with
    | nil => rfl
    | cons => simp at hl
  | cons x a ih =>
    cases b with
    | nil => simp at hl
    | cons y b =>
      simp only [List.length_cons, Nat.add_right_cancel_iff] at hl
      have hc : (poly (x :: a)).coeff a.length = (poly (y :: b)).coeff a.length := by rw [h]
      have h0 := coeff_eq_zero_of_degree_lt (poly_degree a)
      rw [hl] at h0
      simp only [poly, coeff_add, hl, h0, coeff_eq_zero_of_degree_lt (poly_degree b)] at hc
      have hxy : x = y := by cases x <;> cases y <;> simp_all
      subst hxy
      simp only [poly, hl] at h
      rw [ih hl (add_left_cancel h)]

theorem wordBits_injective {a b : BitVec 32} (h : wordBits a = wordBits b) : a = b := by
  apply BitVec.eq_of_getLsbD_eq
  intro i hi
  have : (wordBits a)[i]'(by simp [wordBits]; exact hi) = (wordBits b)[i]'(by simp [wordBits]; exact hi) := by simp [h]
  simpa [wordBits] using this

theorem eq_of_dvd_add {g a b : (ZMod 2)[X]} (hg : g.degree = 32) (ha : a.degree < 32) (hb : b.degree < 32) (h : g ∣ a + b) : a = b := by
  have h0 : a + b = 0 := by
    by_contra hne
    have h1 := degree_le_of_dvd h hne
    have h2 := lt_of_le_of_lt (degree_add_le a b) (max_lt ha hb)
    rw [hg] at h1
    exact absurd h1 (not_le_of_gt h2)
  have : a + b + b = b := by rw [h0, zero_add]
  rwa [add_assoc, poly_add_self, add_zero] at this

/-- A message has only one checksum. -/
theorem isCrc_unique {g : (ZMod 2)[X]} (hg : g.degree = 32) {m : Bytes} {c c' : BitVec 32} (h : IsCrc g m c) (h' : IsCrc g m c') : c = c' := by
  unfold IsCrc at h h'
  have h3 := dvd_add h h'
  rw [poly_append, poly_append, wordBits_length, wordBits_length] at h3
  generalize he : poly (List.replicate 32 true) * X ^ (bits m).length = e at *
  rw [show poly (bits m) * X ^ 32 + poly (wordBits (~~~ c)) + e + (poly (bits m) * X ^ 32 + poly (wordBits (~~~ c')) + e) =
    poly (wordBits (~~~ c)) + poly (wordBits (~~~ c')) + (poly (bits m) * X ^ 32 + poly (bits m) * X ^ 32) + (e + e) by ring,
    poly_add_self, poly_add_self, add_zero, add_zero] at h3
  have hd : ∀ c : BitVec 32, (poly (wordBits c)).degree < 32 := fun c => by
    have := poly_degree (wordBits c); rw [wordBits_length] at this; exact this
  have h4 := poly_injective (by simp [wordBits_length]) (eq_of_dvd_add hg (hd _) (hd _) h3)
  have h5 := wordBits_injective h4
  have : ~~~ (~~~ c) = ~~~ (~~~ c') := by rw [h5]
  simpa using this

/-- A burst of errors of at most 32 bits changes the checksum. -/
theorem isCrc_burst {g : (ZMod 2)[X]} (hg : g.degree = 32) (hx : IsCoprime g X) {m m' : Bytes} {pre b b' post : List Bool}
    (hm : bits m = pre ++ b ++ post) (hm' : bits m' = pre ++ b' ++ post) (hlen : b.length = b'.length) (h32 : b.length ≤ 32) (hne : b ≠ b')
    {c : BitVec 32} (h : IsCrc g m c) : ¬ IsCrc g m' c := by
  intro h'
  unfold IsCrc at h h'
  have hl : (bits m).length = (bits m').length := by rw [hm, hm']; simp [hlen]
  rw [← hl] at h'
  have h3 := dvd_add h h'
  rw [poly_append, poly_append, wordBits_length] at h3
  generalize poly (List.replicate 32 true) * X ^ (bits m).length = e at *
  generalize poly (wordBits (~~~ c)) = r at *
  rw [hm, hm', poly_append, poly_append, poly_append, poly_append, ← hlen] at h3
  rw [show ((poly pre * X ^ b.length + poly b) * X ^ post.length + poly post) * X ^ 32 + r + e +
      (((poly pre * X ^ b.length + poly b') * X ^ post.length + poly post) * X ^ 32 + r + e) =
    (poly b + poly b') * X ^ (post.length + 32) +
      ((poly pre * X ^ (b.length + post.length + 32) + poly pre * X ^ (b.length + post.length + 32)) +
       (poly post * X ^ 32 + poly post * X ^ 32) + (r + r) + (e + e)) by ring] at h3
  simp only [poly_add_self, add_zero] at h3
  have h4 := (hx.pow_right (n := post.length + 32)).dvd_of_dvd_mul_right h3
  have hd : ∀ l : List Bool, l.length ≤ 32 → (poly l).degree < 32 := fun l hl =>
    lt_of_lt_of_le (poly_degree l) (by exact_mod_cast hl)
  exact hne (poly_injective hlen (eq_of_dvd_add hg (hd _ h32) (hd _ (hlen ▸ h32)) h4))

/-! ### The two generators -/

theorem crc32c_degree : crc32c.degree = 32 := by
  unfold crc32c; compute_degree!

theorem crc32ieee_degree : crc32ieee.degree = 32 := by
  unfold crc32ieee; compute_degree!

theorem coprime_X {g q : (ZMod 2)[X]} (h : g = q * X + 1) : IsCoprime g X := by
  refine ⟨1, q, ?_⟩
  rw [h, show 1 * (q * X + 1) + q * X = (q * X + q * X) + 1 by ring, poly_add_self, zero_add]

theorem crc32c_coprime : IsCoprime crc32c X := by
  refine coprime_X (q := X^31 + X^27 + X^26 + X^25 + X^24 + X^22 + X^21 + X^19 + X^18 + X^17 + X^13 + X^12 + X^10 + X^9 + X^8 + X^7 + X^5) ?_
  unfold crc32c; ring

theorem castagnoli_poly : X ^ 32 + wordPoly castagnoli = crc32c := by
  have h : wordBits castagnoli = [false, false, false, true, true, true, true, false, true, true, false, true, true, true, false, false,
    false, true, true, false, true, true, true, true, false, true, false, false, false, false, false, true] := by decide
  unfold wordPoly
  rw [h]
  simp [poly, crc32c]; ring

/-- `crc32.IEEE`, reversed bit order. -/
def ieee : BitVec 32 := 0xedb88320#32

theorem ieee_poly : X ^ 32 + wordPoly ieee = crc32ieee := by
  have h : wordBits ieee = [false, false, false, false, false, true, false, false, true, true, false, false, false, false, false, true,
    false, false, false, true, true, true, false, true, true, false, true, true, false, true, true, true] := by decide
  unfold wordPoly
  rw [h]
  simp [poly, crc32ieee]; ring

/-- The model's checksum is the CRC-32C. -/
theorem crcUpdate_isCrc (m : Bytes) : IsCrc crc32c m (crcUpdate m) := lfsr_isCrc castagnoli_poly m

end KM
