import Verif.Props.Codec
/-
C01, the other direction: outside `Ty.InSync` the round trip fails.
-/
namespace KM.Props
open KM

/-- Some value of the type is not written, or what is written is never read as this value, whatever stands around it. -/
def Lost (t : Ty) (nullable compact : Bool) : Prop :=
  ∃ v, t.Fits v ∧ ∀ b, encodeObjectWorker t v nullable compact = some b → ∀ r off, At r off b → ∀ next, peekObjectWorker t r off nullable compact ≠ .ok next (some v)

mutual
theorem fits_exists : (t : Ty) → ∃ v, t.Fits v
  | .int => ⟨0, by simp [Ty.Fits]⟩
  | .uint => ⟨0, by simp [Ty.Fits]⟩
  | .string => ⟨[], by simp [Ty.Fits]⟩
  | .compactString => ⟨[], by simp [Ty.Fits]⟩
  | .nullableString => ⟨none, by simp [Ty.Fits]⟩
  | .compactNullableString => ⟨none, by simp [Ty.Fits]⟩
  | .nullableBytes => ⟨none, by simp [Ty.Fits]⟩
  | .compactNullableBytes => ⟨none, by simp [Ty.Fits]⟩
  | .bytes => ⟨some [], by simp [Ty.Fits]⟩
  | .compactBytes => ⟨some [], by simp [Ty.Fits]⟩
  | .slice e => ⟨some [], by simp [Ty.Fits]⟩
  | .array e => ⟨some [], by simp [Ty.Fits]⟩
  | .struct fs => by
    obtain ⟨v, h⟩ := fields_fits_exists fs
    exact ⟨v, by rw [Ty.Fits]; exact h⟩
  | .ptr t => by
    obtain ⟨v, h⟩ := fits_exists t
    exact ⟨some v, by rw [Ty.Fits]; exact ⟨v, rfl, h⟩⟩
  | .bool => ⟨false, by simp [Ty.Fits]⟩
  | .int8 => ⟨0, by simp [Ty.Fits]⟩
  | .int16 => ⟨0, by simp [Ty.Fits]⟩
  | .int32 => ⟨0, by simp [Ty.Fits]⟩
  | .int64 => ⟨0, by simp [Ty.Fits]⟩
  | .uint8 => ⟨0, by simp [Ty.Fits]⟩
  | .uint16 => ⟨0, by simp [Ty.Fits]⟩
  | .uint32 => ⟨0, by simp [Ty.Fits]⟩
  | .uint64 => ⟨0, by simp [Ty.Fits]⟩
  | .float64 => ⟨0, by simp [Ty.Fits]⟩
  | .varInt => ⟨0, by simp [Ty.Fits]⟩
  | .varUint => ⟨0, by simp [Ty.Fits]⟩
  | .varInt64 => ⟨0, by simp [Ty.Fits]⟩
  | .varUint64 => ⟨0, by simp [Ty.Fits]⟩
  | .uuid => ⟨⟨List.replicate 16 0, by simp⟩, by simp [Ty.Fits]⟩
  | .messageSetV1 => ⟨⟨[], 0, 0⟩, by simp [Ty.Fits]⟩
theorem fields_fits_exists : (fs : Fields) → ∃ v, fs.Fits v
  | .nil => ⟨(), by simp [Fields.Fits]⟩
  | .cons _ _ t rest => by
    obtain ⟨v, h⟩ := fits_exists t
    obtain ⟨vs, hs⟩ := fields_fits_exists rest
    exact ⟨(v, vs), by rw [Fields.Fits]; exact ⟨h, hs⟩⟩
end

theorem fixed_first {r : Reader} {off n next : Nat} {x : UInt8} {data : Bytes} (h : At r off [x]) (hd : peekFixedData r off (n + 1) = .ok next data) :
    ∃ rest, data.take (n + 1) = x :: rest ∧ rest.length = n := by
  obtain ⟨pre, post, hw, rfl⟩ := h
  simp only [peekFixedData, Reader.peek_eq, decide_eq_true_eq] at hd
  split at hd
  · cases hd
  · cases hd
    next hlen =>
    rw [hw] at hlen ⊢
    simp only [List.length_append, List.length_singleton] at hlen
    refine ⟨post.take n, ?_, by rw [List.length_take]; omega⟩
    rw [List.take_append, List.take_of_length_le (l := pre) (by omega), show pre.length + (n + 1) - pre.length = n + 1 by omega, List.drop_left,
      List.singleton_append, List.take_succ_cons, List.take_succ_cons, List.take_take, Nat.min_self]

/-- A number read where one byte is known: the byte is its highest one. -/
theorem be_first {r : Reader} {off n next : Nat} {x : UInt8} {data : Bytes} (h : At r off [x]) (hd : peekFixedData r off (n + 1) = .ok next data) :
    x.toNat * 256 ^ n ≤ getBE (data.take (n + 1)) ∧ getBE (data.take (n + 1)) < (x.toNat + 1) * 256 ^ n := by
  obtain ⟨rest, e, hl⟩ := fixed_first h hd
  rw [e]
  have h1 := getBE_lt rest
  rw [getBE_cons, hl] at *
  rw [Nat.add_mul, Nat.one_mul]
  exact ⟨Nat.le_add_right _ _, Nat.add_lt_add_left h1 _⟩

theorem sharp_map_ok {α β : Type} {f : α → β} {x : Res α} {next : Nat} {w : β} (h : x.map f = .ok next w) : ∃ v, x = .ok next v ∧ f v = w := by
  cases x with
  | short => cases h
  | panic => cases h
  | ok n v => cases h; exact ⟨v, rfl, rfl⟩

theorem sharp_bind_ok {α β : Type} {f : Nat → α → Res β} {x : Res α} {next : Nat} {w : β} (h : x.bind f = .ok next w) : ∃ n v, x = .ok n v ∧ f n v = .ok next w := by
  cases x with
  | short => cases h
  | panic => cases h
  | ok n v => exact ⟨n, v, rfl, h⟩

theorem int32_first {r : Reader} {off next : Nat} {x : UInt8} {v : I32} (h : At r off [x]) (hd : peekInt32 r off = .ok next v) : x.toNat * 2 ^ 24 ≤ v.toNat := by
  obtain ⟨data, h1, rfl⟩ := sharp_map_ok hd
  have h2 : _ ∧ getBE (data.take 4) < _ := be_first (n := 3) h h1
  obtain ⟨h2, h3⟩ := h2
  have h2 : _ ≤ getBE (data.take 4) := h2
  have := x.toNat_lt
  rw [BitVec.toNat_ofNat, Nat.mod_eq_of_lt] <;> omega

theorem int64_first {r : Reader} {off next : Nat} {x : UInt8} {v : I64} (h : At r off [x]) (hd : peekInt64 r off = .ok next v) : x.toNat * 2 ^ 56 ≤ v.toNat := by
  obtain ⟨data, h1, rfl⟩ := sharp_map_ok hd
  have h2 : _ ∧ getBE (data.take 8) < _ := be_first (n := 7) h h1
  obtain ⟨h2, h3⟩ := h2
  have h2 : _ ≤ getBE (data.take 8) := h2
  have := x.toNat_lt
  rw [BitVec.toNat_ofNat, Nat.mod_eq_of_lt] <;> omega

theorem items_length {α : Type} {f : Nat → Res (Option α)} {a : Bool} {n off next : Nat} {l : List α} (h : peekItems f a n off = .ok next l) : l.length = n := by
  induction n generalizing off next l with
  | zero => cases h; rfl
  | succ n ih =>
    obtain ⟨m, v, _, h2⟩ := sharp_bind_ok h
    cases v with
    | none => cases h2
    | some x =>
      dsimp only at h2
      split at h2
      · obtain ⟨l', h3, rfl⟩ := sharp_map_ok h2
        rw [List.length_cons, ih h3]
      · cases h2

/-- An empty string or byte slice with a length of one byte is not read back where the length has two or four. -/
theorem string_not_empty {r : Reader} {off next : Nat} {x : UInt8} {s : Option Bytes} (h : At r off [x]) (h1 : 0 < x.toNat) (h2 : x.toNat < 128)
    (hd : peekNullableString r off = .ok next s) : s.getD [] ≠ [] := by
  unfold peekNullableString peekNullableData16 at hd
  dsimp only at hd
  split at hd
  · cases hd
  · next hs =>
    have hf : peekFixedData r off (1 + 1) = .ok (off + 2) ((r.peek (off + 2)).1.drop off) := by
      unfold peekFixedData
      dsimp only
      rw [if_neg hs]
    have h3 : _ ∧ getBE (((r.peek (off + 2)).1.drop off).take 2) < _ := be_first h hf
    obtain ⟨h3, h4⟩ := h3
    have h3 : _ ≤ getBE (((r.peek (off + 2)).1.drop off).take 2) := h3
    generalize getBE (((r.peek (off + 2)).1.drop off).take 2) = k at *
    have h5 : (BitVec.ofNat 16 k).toInt = k := by
      rw [BitVec.toInt_eq_toNat_of_lt] <;> rw [BitVec.toNat_ofNat, Nat.mod_eq_of_lt] <;> omega
    rw [h5, if_neg (by omega)] at hd
    simp only [Reader.peek_eq, decide_eq_true_eq] at hd
    split at hd
    · cases hd
    · next h6 =>
      cases hd
      intro h7
      have := congrArg List.length h7
      simp only [Option.getD_some, List.length_drop, List.length_take, List.length_nil] at this
      omega

theorem array_not_empty {α : Type} {f : Nat → Res (Option α)} {a : Bool} {r : Reader} {off next : Nat} {x : UInt8} {l : List α} (h : At r off [x]) (h1 : 0 < x.toNat)
    (hd : peekObjectVarArray f a r off = .ok next (some l)) : l ≠ [] := by
  obtain ⟨m, v, h2, h3⟩ := sharp_bind_ok hd
  have h4 := int32_first h h2
  unfold peekObjectFixedArray at h3
  split at h3
  · next h5 =>
    obtain ⟨l', h6, h7⟩ := sharp_map_ok h3
    cases h7
    have := items_length h6
    rintro rfl
    simp only [List.length_nil] at this
    have h8 : v.toInt = 0 := by omega
    have h9 : v = 0 := BitVec.eq_of_toInt_eq (by rw [h8]; rfl)
    rw [h9] at h4
    simp at h4
    omega
  · cases h3

theorem ptr_lost {t : Ty} {n c : Bool} (h : ∀ fs, t ≠ .struct fs) : Lost (.ptr t) n c := by
  obtain ⟨v, hv⟩ := fits_exists (.ptr t)
  refine ⟨v, hv, fun b _ r off _ next hd => ?_⟩
  rw [peekObjectWorker] at hd
  · cases hd
  · exact h

mutual
theorem lost : (t : Ty) → (n c : Bool) → t.InSync n c = false → Lost t n c
  | .int32, n, c, h => by
    obtain rfl : c = true := by simpa [Ty.InSync] using h
    refine ⟨(1 : I32), by simp [Ty.Fits], fun b hb r off ha next hd => ?_⟩
    rw [encodeObjectWorker, if_pos rfl] at hb
    cases hb
    rw [peekObjectWorker] at hd
    obtain ⟨v, hd, e⟩ := sharp_map_ok hd
    cases e
    rw [show encodeVarInt 1 = [2] by decide +kernel] at ha
    exact absurd (int32_first (x := 2) ha hd) (by decide)
  | .uint32, n, c, h => by
    obtain rfl : c = true := by simpa [Ty.InSync] using h
    refine ⟨(1 : BitVec 32), by simp [Ty.Fits], fun b hb r off ha next hd => ?_⟩
    rw [encodeObjectWorker, if_pos rfl] at hb
    cases hb
    rw [peekObjectWorker] at hd
    obtain ⟨v, hd, e⟩ := sharp_map_ok hd
    cases e
    rw [show encodeVarUint 1 = [1] by decide +kernel] at ha
    exact absurd (int32_first (x := 1) ha hd) (by decide)
  | .int, n, c, h => by
    obtain rfl : c = true := by simpa [Ty.InSync] using h
    refine ⟨(1 : I64), by simp [Ty.Fits], fun b hb r off ha next hd => ?_⟩
    rw [encodeObjectWorker, if_pos rfl] at hb
    cases hb
    rw [peekObjectWorker] at hd
    obtain ⟨v, hd, e⟩ := sharp_map_ok hd
    rw [show encodeVarInt (BitVec.setWidth 32 (1 : I64)) = [2] by decide +kernel] at ha
    have h1 := int32_first (x := 2) ha hd
    have h2 : v = 1 := by
      have := congrArg BitVec.toInt (Option.some.inj e)
      rw [BitVec.toInt_signExtend_of_le (by decide)] at this
      exact BitVec.eq_of_toInt_eq this
    rw [h2] at h1
    exact absurd h1 (by decide)
  | .uint, n, c, h => by
    obtain rfl : c = true := by simpa [Ty.InSync] using h
    refine ⟨(1 : BitVec 64), by simp [Ty.Fits], fun b hb r off ha next hd => ?_⟩
    rw [encodeObjectWorker, if_pos rfl] at hb
    cases hb
    rw [peekObjectWorker] at hd
    obtain ⟨v, hd, e⟩ := sharp_map_ok hd
    rw [show encodeVarUint (BitVec.setWidth 32 (1 : BitVec 64)) = [1] by decide +kernel] at ha
    have h1 := int32_first (x := 1) ha hd
    have h2 : v = 1 := by
      have := congrArg (BitVec.setWidth 32) (Option.some.inj e)
      simpa using this
    rw [h2] at h1
    exact absurd h1 (by decide)
  | .int64, n, c, h => by
    obtain rfl : c = true := by simpa [Ty.InSync] using h
    refine ⟨(1 : I64), by simp [Ty.Fits], fun b hb r off ha next hd => ?_⟩
    rw [encodeObjectWorker, if_pos rfl] at hb
    cases hb
    rw [peekObjectWorker] at hd
    obtain ⟨v, hd, e⟩ := sharp_map_ok hd
    cases e
    rw [show encodeVarInt64 1 = [2] by decide +kernel] at ha
    exact absurd (int64_first (x := 2) ha hd) (by decide)
  | .uint64, n, c, h => by
    obtain rfl : c = true := by simpa [Ty.InSync] using h
    refine ⟨(1 : BitVec 64), by simp [Ty.Fits], fun b hb r off ha next hd => ?_⟩
    rw [encodeObjectWorker, if_pos rfl] at hb
    cases hb
    rw [peekObjectWorker] at hd
    obtain ⟨v, hd, e⟩ := sharp_map_ok hd
    cases e
    rw [show encodeVarUint64 1 = [1] by decide +kernel] at ha
    exact absurd (int64_first (x := 1) ha hd) (by decide)
  | .string, n, c, h => by
    obtain rfl : c = true := by simpa [Ty.InSync] using h
    refine ⟨([] : Bytes), by simp [Ty.Fits], fun b hb r off ha next hd => ?_⟩
    rw [encodeObjectWorker] at hb
    cases n with
    | true => cases hb
    | false =>
      cases hb
      rw [peekObjectWorker] at hd
      obtain ⟨v, hd, e⟩ := sharp_map_ok hd
      rw [show encodeCompactString [] = [2] by decide +kernel] at ha
      exact string_not_empty (x := 2) ha (by decide) (by decide) hd (Option.some.inj e)
  | .nullableBytes, n, c, h => by
    refine ⟨none, by simp [Ty.Fits], fun b hb => ?_⟩
    rw [encodeObjectWorker, if_pos (by cases n <;> cases c <;> simp_all [Ty.InSync])] at hb
    cases hb
  | .compactNullableBytes, n, c, h => by
    refine ⟨none, by simp [Ty.Fits], fun b hb => ?_⟩
    rw [encodeObjectWorker, if_pos (by cases n <;> cases c <;> simp_all [Ty.InSync])] at hb
    cases hb
  | .compactBytes, n, c, h => by
    refine ⟨(some [] : Option Bytes), by simp [Ty.Fits], fun b hb r off ha next hd => ?_⟩
    rw [encodeObjectWorker] at hb
    split at hb
    · cases hb
    · next hnc =>
      cases hb
      obtain rfl : c = false := by cases c <;> simp_all
      rw [peekObjectWorker, if_neg (by simp)] at hd
      obtain ⟨v, hd, e⟩ := sharp_map_ok hd
      cases v with
      | none => cases e
      | some l =>
        cases e
        rw [show encodeCompactBytes (some []) = [2] by decide +kernel] at ha
        exact array_not_empty (x := 2) ha (by decide) hd rfl
  | .slice e, n, c, h => by
    rw [Ty.InSync] at h
    obtain ⟨x, hx, hb⟩ := lost e false false h
    refine ⟨(some [x] : Option (List e.den)), by rw [Ty.Fits]; exact ⟨[x], rfl, by simp, by simpa using hx⟩, fun b h1 r off ha next hd => ?_⟩
    rw [encodeObjectWorker] at h1
    cases e1 : encodeObjectWorker e x false false with
    | none => simp [encodeItems, e1] at h1
    | some b1 =>
      have item : ∀ {a : Bool} {o n : Nat}, At r o b1 → peekItems (fun o => peekObjectWorker e r o false false) a 1 o ≠ .ok n [x] := by
        intro a o n hat hp
        obtain ⟨m, y, hy, hp⟩ := sharp_bind_ok hp
        cases y with
        | none => cases hp
        | some y =>
          dsimp only at hp
          split at hp
          · obtain ⟨l, _, e⟩ := sharp_map_ok hp
            cases e
            exact hb b1 e1 r o hat m hy
          · cases hp
      have fixed : ∀ {a : Bool} {o n : Nat}, At r o b1 → peekObjectFixedArray (fun o => peekObjectWorker e r o false false) a o 1 ≠ .ok n (some [x]) := by
        intro a o n hat hp
        unfold peekObjectFixedArray at hp
        rw [if_pos (by decide)] at hp
        obtain ⟨l, hp, e⟩ := sharp_map_ok hp
        cases e
        exact item hat hp
      cases c with
      | true =>
        have e2 : b = encodeVarInt 2 ++ b1 := by simpa [encodeItems, e1] using h1.symm
        rw [e2] at ha
        obtain ⟨ha1, ha2⟩ := ha.append
        rw [peekObjectWorker, if_pos rfl] at hd
        obtain ⟨v, hd, e⟩ := sharp_map_ok hd
        cases v with
        | none => cases e
        | some l =>
          cases e
          unfold peekObjectCompactVarArray at hd
          rw [peekVarInt_at ha1, Res.bind_ok, if_neg (by decide)] at hd
          exact fixed ha2 hd
      | false =>
        have e2 : b = encodeInt32 1 ++ b1 := by simpa [encodeItems, e1] using h1.symm
        rw [e2] at ha
        obtain ⟨ha1, ha2⟩ := ha.append
        rw [peekObjectWorker, if_neg (by simp)] at hd
        obtain ⟨v, hd, e⟩ := sharp_map_ok hd
        cases v with
        | none => cases e
        | some l =>
          cases e
          unfold peekObjectVarArray at hd
          rw [peekInt32_at ha1, Res.bind_ok] at hd
          exact fixed ha2 hd
  | .struct fs, n, c, h => by
    rw [Ty.InSync] at h
    obtain ⟨v, hv, hb⟩ := lost_fields fs h
    refine ⟨v, by rw [Ty.Fits]; exact hv, fun b h1 r off ha next hd => ?_⟩
    rw [encodeObjectWorker] at h1
    rw [peekObjectWorker] at hd
    obtain ⟨v', hd, e⟩ := sharp_map_ok hd
    cases e
    exact hb b h1 r off ha next hd
  | .ptr (.struct fs), n, c, h => by
    rw [Ty.InSync] at h
    obtain ⟨v, hv, hb⟩ := lost_fields fs h
    refine ⟨some v, by rw [Ty.Fits]; exact ⟨v, rfl, by rw [Ty.Fits]; exact hv⟩, fun b h1 r off ha next hd => ?_⟩
    rw [encodeObjectWorker] at h1
    rw [encodeObjectWorker] at h1
    rw [peekObjectWorker] at hd
    obtain ⟨v', hd, e⟩ := sharp_map_ok hd
    cases e
    exact hb b h1 r off ha next hd
  | .messageSetV1, n, c, h => by
    refine ⟨⟨[], 0, 0⟩, by simp [Ty.Fits], fun b hb r off ha next hd => ?_⟩
    rw [peekObjectWorker] at hd
    cases hd
  | .array e, n, c, h => by
    refine ⟨(some [] : Option (List e.den)), by simp [Ty.Fits], fun b hb => ?_⟩
    rw [encodeObjectWorker] at hb
    cases hb
  | .ptr .bool, n, c, _ => ptr_lost (fun _ h => by cases h)
  | .ptr .int8, n, c, _ => ptr_lost (fun _ h => by cases h)
  | .ptr .int16, n, c, _ => ptr_lost (fun _ h => by cases h)
  | .ptr .int32, n, c, _ => ptr_lost (fun _ h => by cases h)
  | .ptr .int, n, c, _ => ptr_lost (fun _ h => by cases h)
  | .ptr .int64, n, c, _ => ptr_lost (fun _ h => by cases h)
  | .ptr .uint8, n, c, _ => ptr_lost (fun _ h => by cases h)
  | .ptr .uint16, n, c, _ => ptr_lost (fun _ h => by cases h)
  | .ptr .uint32, n, c, _ => ptr_lost (fun _ h => by cases h)
  | .ptr .uint, n, c, _ => ptr_lost (fun _ h => by cases h)
  | .ptr .uint64, n, c, _ => ptr_lost (fun _ h => by cases h)
  | .ptr .float64, n, c, _ => ptr_lost (fun _ h => by cases h)
  | .ptr .varInt, n, c, _ => ptr_lost (fun _ h => by cases h)
  | .ptr .varUint, n, c, _ => ptr_lost (fun _ h => by cases h)
  | .ptr .varInt64, n, c, _ => ptr_lost (fun _ h => by cases h)
  | .ptr .varUint64, n, c, _ => ptr_lost (fun _ h => by cases h)
  | .ptr .uuid, n, c, _ => ptr_lost (fun _ h => by cases h)
  | .ptr .string, n, c, _ => ptr_lost (fun _ h => by cases h)
  | .ptr .compactString, n, c, _ => ptr_lost (fun _ h => by cases h)
  | .ptr .nullableString, n, c, _ => ptr_lost (fun _ h => by cases h)
  | .ptr .compactNullableString, n, c, _ => ptr_lost (fun _ h => by cases h)
  | .ptr .bytes, n, c, _ => ptr_lost (fun _ h => by cases h)
  | .ptr .compactBytes, n, c, _ => ptr_lost (fun _ h => by cases h)
  | .ptr .nullableBytes, n, c, _ => ptr_lost (fun _ h => by cases h)
  | .ptr .compactNullableBytes, n, c, _ => ptr_lost (fun _ h => by cases h)
  | .ptr .messageSetV1, n, c, _ => ptr_lost (fun _ h => by cases h)
  | .ptr (.slice _), n, c, _ => ptr_lost (fun _ h => by cases h)
  | .ptr (.array _), n, c, _ => ptr_lost (fun _ h => by cases h)
  | .ptr (.ptr _), n, c, _ => ptr_lost (fun _ h => by cases h)
  | .bool, n, c, h => by simp [Ty.InSync] at h
  | .int8, n, c, h => by simp [Ty.InSync] at h
  | .int16, n, c, h => by simp [Ty.InSync] at h
  | .uint8, n, c, h => by simp [Ty.InSync] at h
  | .uint16, n, c, h => by simp [Ty.InSync] at h
  | .float64, n, c, h => by simp [Ty.InSync] at h
  | .varInt, n, c, h => by simp [Ty.InSync] at h
  | .varUint, n, c, h => by simp [Ty.InSync] at h
  | .varInt64, n, c, h => by simp [Ty.InSync] at h
  | .varUint64, n, c, h => by simp [Ty.InSync] at h
  | .uuid, n, c, h => by simp [Ty.InSync] at h
  | .compactString, n, c, h => by simp [Ty.InSync] at h
  | .nullableString, n, c, h => by simp [Ty.InSync] at h
  | .compactNullableString, n, c, h => by simp [Ty.InSync] at h
  | .bytes, n, c, h => by simp [Ty.InSync] at h
theorem lost_fields : (fs : Fields) → fs.InSync = false →
    ∃ v, fs.Fits v ∧ ∀ b, encodeStruct fs v = some b → ∀ r off, At r off b → ∀ next, peekObjectStruct fs r off ≠ .ok next v
  | .nil, h => by simp [Fields.InSync] at h
  | .cons name tag t rest, h => by
    by_cases ht : t.InSync (kafkaTags tag).1 (kafkaTags tag).2 = true
    · have hr : rest.InSync = false := by simpa [Fields.InSync, ht] using h
      obtain ⟨v, hv⟩ := fits_exists t
      obtain ⟨vs, hvs, hb⟩ := lost_fields rest hr
      refine ⟨(v, vs), by rw [Fields.Fits]; exact ⟨hv, hvs⟩, fun b h1 r off ha next hd => ?_⟩
      obtain ⟨b1, e1, hdec⟩ := roundtrip t v _ _ ht hv
      rw [encodeStruct, e1] at h1
      cases e2 : encodeStruct rest vs with
      | none => rw [e2] at h1; cases h1
      | some b2 =>
        rw [e2] at h1
        cases h1
        obtain ⟨ha1, ha2⟩ := ha.append
        have hdec := hdec r off ha1
        dsimp only at hdec
        rw [peekObjectStruct, hdec, Res.bind_ok] at hd
        dsimp only at hd
        rw [if_pos (InSync_assignable t _ _ ht)] at hd
        obtain ⟨vs', hd, e⟩ := sharp_map_ok hd
        cases e
        exact hb b2 e2 r _ ha2 next hd
    · obtain ⟨v, hv, hb⟩ := lost t _ _ (Bool.eq_false_iff.2 ht)
      obtain ⟨vs, hvs⟩ := fields_fits_exists rest
      refine ⟨(v, vs), by rw [Fields.Fits]; exact ⟨hv, hvs⟩, fun b h1 r off ha next hd => ?_⟩
      rw [encodeStruct] at h1
      cases e1 : encodeObjectWorker t v (kafkaTags tag).1 (kafkaTags tag).2 with
      | none => rw [e1] at h1; cases h1
      | some b1 =>
        rw [e1] at h1
        cases e2 : encodeStruct rest vs with
        | none => rw [e2] at h1; cases h1
        | some b2 =>
          rw [e2] at h1
          cases h1
          rw [peekObjectStruct] at hd
          obtain ⟨m, x, hx, hd⟩ := sharp_bind_ok hd
          cases x with
          | none => cases hd
          | some x =>
            dsimp only at hd
            split at hd
            · obtain ⟨vs', hd, e⟩ := sharp_map_ok hd
              cases e
              exact hb b1 e1 r off ha.append.1 m hx
            · cases hd
end

/-- **C01**, the other direction: the types of `Ty.InSync` are exactly those of which every value fit for the wire is written and read back. Of every other type there is such a value that is
not written at all, or of which the bytes are never read as this value, whatever stands before and after them. -/
theorem C01_sharp (t : Ty) (nullable compact : Bool) (h : t.InSync nullable compact = false) :
    ∃ v, t.Fits v ∧ ∀ b, encodeObjectWorker t v nullable compact = some b → ∀ pre post : Bytes, pre.length + b.length ≤ 4096 → ∀ next,
      peekObjectWorker t ⟨pre ++ (b ++ post)⟩ pre.length nullable compact ≠ .ok next (some v) := by
  obtain ⟨v, h1, h2⟩ := lost t nullable compact h
  exact ⟨v, h1, fun b hb pre post hl => h2 b hb _ _ (at_mk pre b post hl)⟩

/-- **C01**: a field of a Go array type is neither written nor read. -/
theorem C01_arrays (name : String) (tag : List String) (e : Ty) (rest : Fields) :
    (∀ v, encodeStruct (.cons name tag (.array e) rest) v = none) ∧
    ∀ r off next v, peekObjectStruct (.cons name tag (.array e) rest) r off ≠ .ok next v := by
  constructor
  · rintro ⟨v, vs⟩
    rw [encodeStruct, encodeObjectWorker]; rfl
  · intro r off next v h
    rw [peekObjectStruct] at h
    obtain ⟨m, x, _, h⟩ := sharp_bind_ok h
    cases x with
    | none => cases h
    | some x => cases h

/-- Example: a struct with an integer and a compact string behind it. The empty string is written as one byte, which is read as the first half of a length. -/
def lossyTy : Ty := .struct (.cons "A" [] .int32 (.cons "B" ["compact"] .string .nil))
example : lossyTy.InSync false false = false := by decide
example : encodeObject lossyTy ((5 : I32), ([] : Bytes), ()) = some [0, 0, 0, 5, 2] := by decide +kernel
example : (peekObject lossyTy ⟨[0, 0, 0, 5, 2, 0, 0, 0, 0, 0, 0, 0]⟩ 0 matches .short) = true := by decide +kernel

end KM.Props
