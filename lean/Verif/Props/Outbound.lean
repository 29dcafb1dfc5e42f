import Verif.Outbound
import Verif.Codec.VarintSpec
import Verif.Reads
import Verif.Client
/-
C85: the response writer of /repo/outbound-utils.go and the encoder of /repo/encoder.go write the same bytes.
-/
namespace KM.Props
open KM

/-- The values for which it is so. -/
def WritesAlike : (t : Ty) → t.den → Bool
  | .int8, _ | .int16, _ | .int32, _ | .int64, _ | .uint32, _ | .varInt, _ | .varInt64, _ | .uuid, _ | .float64, _ => true
  | .string, _ | .compactBytes, _ | .compactNullableBytes, _ => true
  | .nullableString, v => v.isSome
  | .compactNullableString, v => v.isNone
  | .ptr .string, v => Option.isSome v
  | .bytes, v => v.isSome
  | .nullableBytes, v => v.isSome
  | _, _ => false

theorem makeZigzag32_ne {a b : BitVec 32} (h : a ≠ b) {s t : Bytes} (hl : s.length = t.length) : makeZigzag32 a ++ s ≠ makeZigzag32 b ++ t := by
  intro e
  have hab : makeZigzag32 a = makeZigzag32 b := (List.append_inj' e hl).1
  have ha := (makeVarU_spec (w := 32) (by decide) (zigzag a)).2.2
  have hb := (makeVarU_spec (w := 32) (by decide) (zigzag b)).2.2
  rw [zigzag_toNat (by decide)] at ha hb
  have he : Spec.zigzag a.toInt = Spec.zigzag b.toInt := by
    rw [← ha, ← hb]; exact congrArg Spec.leb128 hab
  refine h (BitVec.eq_of_toInt_eq ?_)
  unfold Spec.zigzag at he
  split at he <;> split at he <;> omega

/-- **C85**, partial: for each type of the codec, the values that both write, in the same way: numbers, UUIDs, strings and byte strings unless
they are nil, and the compact byte strings and null compact strings. -/
theorem C85_exactly_partial (t : Ty) (v : t.den) :
    (∃ b, writeValue (.of t v) = some b ∧ encodeObject t v = some b) ↔ WritesAlike t v = true := by
  unfold writeValue encodeObject
  have same : ∀ {x : Bytes}, (∃ b, some x = some b ∧ some x = some b) ↔ true = true := ⟨fun _ => rfl, fun _ => ⟨_, rfl, rfl⟩⟩
  have none_ : ∀ {x : Option Bytes}, (∃ b, (none : Option Bytes) = some b ∧ x = some b) ↔ false = true := ⟨fun ⟨_, h, _⟩ => (by cases h), fun h => (by cases h)⟩
  have diff : ∀ {x y : Bytes}, x ≠ y → ((∃ b, some x = some b ∧ some y = some b) ↔ false = true) := fun hne =>
    ⟨fun ⟨_, h, h'⟩ => absurd (Option.some.inj (h.trans h'.symm)) hne, fun h => by cases h⟩
  have compact : ∀ s : Bytes, outCompactNullableString (some s) ≠ encodeCompactNullableString (some s) := fun s =>
    makeZigzag32_ne (fun e => by
      have := congrArg BitVec.toNat e
      simp only [BitVec.toNat_ofNat] at this
      omega) rfl
  cases t with
  | int8 => exact same
  | int16 => exact same
  | int32 => exact same
  | int64 => exact same
  | uint32 => exact same
  | varInt => exact same
  | varInt64 => exact same
  | uuid => exact same
  | float64 => exact same
  | string => exact same
  | compactBytes => cases v <;> exact same
  | compactNullableBytes => cases v <;> exact same
  | bool => exact none_
  | int => exact none_
  | uint8 => exact none_
  | uint16 => exact none_
  | uint => exact none_
  | uint64 => exact none_
  | varUint => exact none_
  | varUint64 => exact none_
  | slice => exact none_
  | array => exact none_
  | struct => exact none_
  | messageSetV1 => exact none_
  | compactString => exact diff (compact v)
  | compactNullableString => cases v with
    | none => exact same
    | some s => exact diff (compact s)
  | nullableString => cases v with
    | none => exact diff (by decide)
    | some s => exact same
  | bytes => cases v with
    | none => exact diff (by decide)
    | some s => exact same
  | nullableBytes => cases v with
    | none => exact diff (by decide)
    | some s => exact same
  | ptr t =>
    cases t with
    | string => cases v with
      | none => exact diff (by decide)
      | some s => exact same
    | _ => exact none_

/-- An array of `n` elements is announced as one of `n + 1`. -/
theorem C85_arrays_false (vs : List GoAny) (b : Bytes) (h : writeValue (.anys (some vs)) = some b) :
    Spec.be (b.take 4) = (vs.length + 1) % 2 ^ 32 := by
  simp only [writeValue, Option.map_eq_some_iff] at h
  obtain ⟨x, _, rfl⟩ := h
  rw [List.take_append_of_le_length (by simp [encodeInt32]), List.take_of_length_le (by simp [encodeInt32])]
  have key : ∀ k n, n < 256 ^ k → Spec.be (putBE k n) = n := fun k n h => by
    rw [← getBE_eq_be, getBE_putBE]; exact Nat.mod_eq_of_lt h
  rw [encodeInt32, key 4 _ (BitVec.ofNat 32 vs.length + 1).isLt]
  simp [BitVec.toNat_add]

/-- **C85**, partial: but for the announced length, arrays of values that both write alike are written alike: all elements, in order. -/
theorem C85_elements_partial (e : Ty) (vs : List e.den) (h : ∀ v ∈ vs, WritesAlike e v = true) :
    ∃ n n' b : Bytes, writeValue (.anys (some (vs.map (.of e)))) = some (n ++ b) ∧ encodeObject (.slice e) (some vs) = some (n' ++ b) ∧ n.length = 4 ∧ n'.length = 4 := by
  have key : ∃ b, writeValues (vs.map (.of e)) = some b ∧ encodeItems (fun x => encodeObjectWorker e x false false) vs = some b := by
    induction vs with
    | nil => exact ⟨[], by simp [writeValues], rfl⟩
    | cons v vs ih =>
      obtain ⟨b, h1, h2⟩ := (C85_exactly_partial e v).2 (h v (List.mem_cons_self ..))
      obtain ⟨bs, h3, h4⟩ := ih fun v hv => h v (List.mem_cons_of_mem _ hv)
      have h2 : encodeObjectWorker e v false false = some b := h2
      refine ⟨b ++ bs, ?_, ?_⟩
      · simp [writeValues, h1, h3]
      · simp [encodeItems, h2, h4]
  obtain ⟨b, h1, h2⟩ := key
  refine ⟨encodeInt32 (BitVec.ofNat 32 (vs.map (GoAny.of e)).length + 1), encodeInt32 (BitVec.ofNat 32 vs.length), b, by simp only [writeValue, h1, Option.map_some], ?_, by simp [encodeInt32], by simp [encodeInt32]⟩
  unfold encodeObject encodeObjectWorker
  simp [h2]

/-- The hypothesis of `C85_elements_partial`, and what is written. -/
example : (∀ v ∈ ([[1, 2], []] : List Bytes), WritesAlike .string v = true) ∧
    writeValue (.anys (some ([[1, 2], []].map (.of .string)))) = some [0, 0, 0, 3, 0, 2, 1, 2, 0, 0] ∧
    encodeObject (.slice .string) (some [[1, 2], []]) = some [0, 0, 0, 2, 0, 2, 1, 2, 0, 0] := ⟨fun _ _ => rfl, by decide +kernel, by decide +kernel⟩

theorem eq_of_key {l : List (Int × GoAny)} (hn : (l.map (·.1)).Nodup) {a b : Int × GoAny} (ha : a ∈ l) (hb : b ∈ l) (e : a.1 = b.1) : a = b := by
  induction l with
  | nil => cases ha
  | cons x l ih =>
    rw [List.map_cons, List.nodup_cons] at hn
    rcases List.mem_cons.1 ha with h1 | h1 <;> rcases List.mem_cons.1 hb with h2 | h2
    · rw [h1, h2]
    · exact absurd (List.mem_map.2 ⟨b, h2, by rw [← e, h1]⟩) hn.1
    · exact absurd (List.mem_map.2 ⟨a, h1, by rw [e, h2]⟩) hn.1
    · exact ih hn.2 h1 h2

/-- **C85**, tags: as with the encoder (C10), the bytes do not depend on the iteration order of the map. -/
theorem C85_tags_partial {tags tags' : List (Int × GoAny)} (hp : tags.Perm tags') (hn : (tags.map (·.1)).Nodup) : writeTags tags = writeTags tags' := by
  have sorted : ∀ l : List (Int × GoAny), (l.mergeSort fun a b => a.1 ≤ b.1).Pairwise fun a b => decide (a.1 ≤ b.1) = true := fun l =>
    List.pairwise_mergeSort (le := fun a b => decide (a.1 ≤ b.1)) (fun a b c h1 h2 => decide_eq_true (Int.le_trans (of_decide_eq_true h1) (of_decide_eq_true h2)))
      (fun a b => by rcases Int.le_total a.1 b.1 with h | h <;> simp [h]) l
  have perm : ∀ l : List (Int × GoAny), (l.mergeSort fun a b => a.1 ≤ b.1).Perm l := fun l => List.mergeSort_perm l _
  have same : (tags.mergeSort fun a b => a.1 ≤ b.1) = tags'.mergeSort fun a b => a.1 ≤ b.1 := by
    refine List.Perm.eq_of_pairwise (fun a b ha hb h1 h2 => ?_) (sorted _) (sorted _) (((perm tags).trans hp).trans (perm tags').symm)
    have ha := (perm tags).mem_iff.1 ha
    have hb := hp.mem_iff.2 ((perm tags').mem_iff.1 hb)
    have e : a.1 = b.1 := Int.le_antisymm (of_decide_eq_true h1) (of_decide_eq_true h2)
    exact eq_of_key hn ha hb e
  unfold writeTags
  rw [same, hp.length_eq]
  by_cases h : tags = []
  · rw [if_pos h, if_pos (by subst h; exact hp.symm.eq_nil)]
  · rw [if_neg h, if_neg fun h' => h (by subst h'; exact hp.eq_nil)]

/-- **C85**, tags: what is written for tags in ascending order (so, by `C85_tags_partial`, for any tags): their number, and for each of them its id, the number of bytes of its value, this number
again in four bytes, and the value. Without tags it is a byte 0. -/
theorem C85_tag_bytes_partial : writeTags [] = some [0] ∧ ∀ (tags : List (Int × GoAny)) (bodies : List Bytes), tags ≠ [] → tags.Pairwise (fun a b => a.1 < b.1) →
    List.Forall₂ (fun t b => writeValue t.2 = some b) tags bodies →
    writeTags tags = some (makeZigzag32 (BitVec.ofNat 32 tags.length) ++ (tags.zip bodies).flatMap fun x =>
      makeZigzag32 (BitVec.ofInt 32 x.1.1) ++ makeZigzag32 (BitVec.ofNat 32 x.2.length) ++ encodeUint32 (BitVec.ofNat 32 x.2.length) ++ x.2) := by
  refine ⟨rfl, fun tags bodies hne hs hf => ?_⟩
  unfold writeTags
  rw [if_neg hne, List.mergeSort_of_pairwise (hs.imp fun h => decide_eq_true (Int.le_of_lt h))]
  have key : writeTagFields tags = some ((tags.zip bodies).flatMap fun x =>
      makeZigzag32 (BitVec.ofInt 32 x.1.1) ++ makeZigzag32 (BitVec.ofNat 32 x.2.length) ++ encodeUint32 (BitVec.ofNat 32 x.2.length) ++ x.2) := by
    clear hne hs
    induction hf with
    | nil => rfl
    | @cons t b ts bs h _ ih =>
      obtain ⟨id, v⟩ := t
      have h : writeValue v = some b := h
      simp [writeTagFields, h, ih, outNullableBytes]
  rw [key]
  rfl

/-- Two tags in descending order, written in ascending order. -/
example : writeTags [((3 : Int), GoAny.of .int8 7), (2, .of .int8 8)] = some [4, 4, 2, 0, 0, 0, 1, 8, 6, 2, 0, 0, 0, 1, 7] := by
  rw [C85_tags_partial (List.Perm.swap ..) (by decide), C85_tag_bytes_partial.2 _ [[8], [7]] (by simp) (by simp) (.cons rfl (.cons rfl .nil))]
  decide +kernel

/-- **C85** is false: null and empty strings are the same, an array with one element is announced as one with two, an empty compact string is null, there are no booleans, and
the data of a tagged field is four bytes longer than announced. -/
theorem C85_false :
    (∃ b, writeValue (.of .nullableString none) = some b ∧ writeValue (.of .nullableString (some [])) = some b ∧ Spec.Client.nullableStr b = some (some [], [])) ∧
    (∃ b, writeValue (.anys (some [.of .int8 7])) = some b ∧ Spec.Client.array Spec.Client.int8 b = none) ∧
    (∃ b, writeValue (.of .compactNullableString none) = some b ∧ writeValue (.of .compactString []) = some b) ∧
    (writeValue (.of .bool true) = none) ∧
    (writeTags [(3, .of .int8 7)] = some [2, 6, 2, 0, 0, 0, 1, 7] ∧ writeValue (.of .int8 7) = some [7]) :=
  ⟨⟨_, rfl, rfl, by decide⟩, ⟨_, rfl, by decide⟩, ⟨[0], by decide +kernel, by decide +kernel⟩, rfl, by
    unfold writeTags
    rw [List.mergeSort_singleton]
    decide +kernel, rfl⟩

end KM.Props
