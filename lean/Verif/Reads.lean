import Verif.Codec.RoundTrip
import Verif.Spec.Protocol
import Verif.Conn
/-
The decoder on what a client writes: it reads the complete encoding to the value, and reports "short" on every proper prefix.
-/
namespace KM

/-- The decoding function reads the encoding `b` to `v`; when the window ends inside `b` it reports "short". -/
def Reads {α : Type} (dec : Reader → Nat → Res α) (b : Bytes) (v : α) : Prop :=
  ∀ r off, off ≤ r.window.length →
    (∀ post, r.window.drop off = b ++ post → dec r off = .ok (off + b.length) v) ∧
    (∀ rest, rest ≠ [] → b = r.window.drop off ++ rest → dec r off = .short)

theorem Reads.congr {α : Type} {dec dec' : Reader → Nat → Res α} {b : Bytes} {v : α} (h : Reads dec b v) (e : ∀ r off, dec' r off = dec r off) :
    Reads dec' b v := by
  intro r off ho
  rw [e]
  exact h r off ho

theorem Reads.pure {α : Type} (v : α) : Reads (fun _ off => .ok off v) [] v := by
  intro r off ho
  refine ⟨fun post h => rfl, fun rest hr h => ?_⟩
  have := congrArg List.length h
  simp at this
  exact absurd (List.eq_nil_of_length_eq_zero (by omega)) hr

theorem Reads.bind {α β : Type} {dec : Reader → Nat → Res α} {f : Reader → Nat → α → Res β} {b1 b2 : Bytes} {v : α} {u : β}
    (h1 : Reads dec b1 v) (h2 : Reads (fun r n => f r n v) b2 u) : Reads (fun r off => (dec r off).bind (f r)) (b1 ++ b2) u := by
  intro r off ho
  obtain ⟨a1, a2⟩ := h1 r off ho
  have next : ∀ post, r.window.drop off = b1 ++ post → off + b1.length ≤ r.window.length ∧ r.window.drop (off + b1.length) = post := by
    intro post h
    have hl := congrArg List.length h
    simp only [List.length_drop, List.length_append] at hl
    refine ⟨by omega, ?_⟩
    rw [← List.drop_drop, h, List.drop_left]
  dsimp only
  refine ⟨fun post h => ?_, fun rest hr h => ?_⟩
  · rw [List.append_assoc] at h
    obtain ⟨n1, n2⟩ := next _ h
    have := (h2 r (off + b1.length) n1).1 post n2
    rw [a1 _ h, Res.bind_ok, List.length_append, ← Nat.add_assoc]
    exact this
  · rcases List.append_eq_append_iff.1 h with ⟨d, hd, hb⟩ | ⟨d, hd, hb⟩
    · -- the first part is complete
      obtain ⟨n1, n2⟩ := next _ hd
      have := (h2 r (off + b1.length) n1).2 rest hr (by rw [n2]; exact hb)
      rw [a1 _ hd, Res.bind_ok]
      exact this
    · by_cases hdn : d = []
      · subst hdn
        rw [List.append_nil] at hd
        obtain ⟨n1, n2⟩ := next [] (by rw [List.append_nil]; exact hd.symm)
        have := (h2 r (off + b1.length) n1).2 rest hr (by rw [n2]; simpa using hb.symm)
        rw [a1 [] (by rw [List.append_nil]; exact hd.symm), Res.bind_ok]
        exact this
      · rw [a2 d hdn hd, Res.bind_short]

theorem Reads.map {α β : Type} {dec : Reader → Nat → Res α} {b : Bytes} {v : α} (h : Reads dec b v) (f : α → β) :
    Reads (fun r off => (dec r off).map f) b (f v) := by
  intro r off ho
  obtain ⟨a1, a2⟩ := h r off ho
  dsimp only
  exact ⟨fun post h => by rw [a1 post h, Res.map_ok], fun rest hr h => by rw [a2 rest hr h, Res.map_short]⟩

theorem reads_fixed (b : Bytes) : Reads (fun r off => peekFixedData r off b.length) b b := by
  intro r off ho
  refine ⟨fun post h => ?_, fun rest hr h => ?_⟩
  · apply peekFixedData_at
    refine ⟨r.window.take off, post, ?_, ?_⟩
    · rw [← h, List.take_append_drop]
    · rw [List.length_take]; omega
  · dsimp only
    simp only [peekFixedData, Reader.peek_eq, decide_eq_true_eq]
    have hl := congrArg List.length h
    simp only [List.length_drop, List.length_append] at hl
    have := List.length_pos_iff.2 hr
    rw [if_pos (by omega)]

theorem Spec.int16_eq (v : I16) : Spec.int16 v = encodeInt16 v := by
  simp [Spec.int16, encodeInt16, putBE]

theorem Spec.int32_eq (v : I32) : Spec.int32 v = encodeInt32 v := by
  simp [Spec.int32, encodeInt32, putBE]

theorem Spec.int64_eq (v : I64) : Spec.int64 v = encodeInt64 v := by
  simp [Spec.int64, encodeInt64, putBE]

theorem reads_int16 (v : I16) : Reads peekInt16 (Spec.int16 v) v := by
  have h := (reads_fixed (Spec.int16 v)).map fun data => (BitVec.ofNat 16 (getBE (data.take 2)) : I16)
  have e : (BitVec.ofNat 16 (getBE ((Spec.int16 v).take 2)) : I16) = v := by
    rw [Spec.int16_eq, encodeInt16, List.take_of_length_le (by simp), getBE_putBE_of_lt (by simpa using v.isLt)]
    simp
  rw [e] at h
  exact h

theorem reads_int32 (v : I32) : Reads peekInt32 (Spec.int32 v) v := by
  have h := (reads_fixed (Spec.int32 v)).map fun data => (BitVec.ofNat 32 (getBE (data.take 4)) : I32)
  have e : (BitVec.ofNat 32 (getBE ((Spec.int32 v).take 4)) : I32) = v := by
    rw [Spec.int32_eq, encodeInt32, List.take_of_length_le (by simp), getBE_putBE_of_lt (by simpa using v.isLt)]
    simp
  rw [e] at h
  exact h

theorem reads_int64 (v : I64) : Reads peekInt64 (Spec.int64 v) v := by
  have h := (reads_fixed (Spec.int64 v)).map fun data => (BitVec.ofNat 64 (getBE (data.take 8)) : I64)
  have e : (BitVec.ofNat 64 (getBE ((Spec.int64 v).take 8)) : I64) = v := by
    rw [Spec.int64_eq, encodeInt64, List.take_of_length_le (by simp), getBE_putBE_of_lt (by simpa using v.isLt)]
    simp
  rw [e] at h
  exact h

/-- `peekNullableData16` reads a 16-bit length and then the data. -/
theorem peekNullableData16_bind (r : Reader) (off : Nat) : peekNullableData16 r off = (peekInt16 r off).bind fun n count =>
    if count.toInt < 0 then .ok n none else (peekFixedData r n count.toInt.toNat).map some := by
  simp only [peekNullableData16, peekInt16, peekFixedData]
  split
  · rfl
  · rename_i h
    simp only [Res.map_ok, Res.bind_ok]
    split
    · rfl
    · split <;> rfl

theorem reads_nullableStr (s : Option Bytes) (hs : ∀ x ∈ s, Spec.ShortStr x) : Reads peekNullableString (Spec.nullableStr s) s := by
  have key : Reads (fun r off => (peekInt16 r off).bind fun n count =>
      if count.toInt < 0 then .ok n none else (peekFixedData r n count.toInt.toNat).map some) (Spec.nullableStr s) s := by
    cases s with
    | none =>
      have := Reads.bind (f := fun r n (count : I16) => if count.toInt < 0 then .ok n none else (peekFixedData r n count.toInt.toNat).map some)
        (reads_int16 (-1)) (Reads.pure (none : Option Bytes))
      rw [List.append_nil] at this
      exact this
    | some x =>
      have hx : x.length < 2 ^ 15 := hs x rfl
      have e : (BitVec.ofNat 16 x.length : I16).toInt = x.length := by
        rw [BitVec.toInt_eq_toNat_of_lt (by rw [BitVec.toNat_ofNat]; omega), BitVec.toNat_ofNat, Nat.mod_eq_of_lt (by omega)]
      refine Reads.bind (f := fun r n (count : I16) => if count.toInt < 0 then .ok n none else (peekFixedData r n count.toInt.toNat).map some)
        (reads_int16 (BitVec.ofNat 16 x.length)) ?_
      rw [e]
      have h2 : ¬ ((x.length : Int) < 0) := by omega
      simp only [if_neg h2, Int.toNat_natCast]
      exact (reads_fixed x).map some
  exact key.congr fun r off => peekNullableData16_bind r off

theorem reads_items {α β : Type} (f : α → Bytes) (g : α → β) (dec : Reader → Nat → Res (Option β)) (xs : List α)
    (h : ∀ x ∈ xs, Reads dec (f x) (some (g x))) : Reads (fun r off => peekItems (dec r) true xs.length off) (xs.flatMap f) (xs.map g) := by
  induction xs with
  | nil => exact Reads.pure _
  | cons x xs ih =>
    have h2 := (ih fun y hy => h y (List.mem_cons_of_mem _ hy)).map (g x :: ·)
    have := Reads.bind (f := fun r n (item : Option β) => match item with
      | none => Res.panic
      | some y => (peekItems (dec r) true xs.length n).map (y :: ·)) (h x (List.mem_cons_self ..)) h2
    exact this

theorem reads_array {α β : Type} (f : α → Bytes) (g : α → β) (dec : Reader → Nat → Res (Option β)) (xs : List α) (hl : Spec.ShortList xs)
    (h : ∀ x ∈ xs, Reads dec (f x) (some (g x))) :
    Reads (fun r off => peekObjectVarArray (dec r) true r off) (Spec.array f xs) (some (xs.map g)) := by
  have e : (BitVec.ofNat 32 xs.length : I32).toInt = xs.length := by
    have : xs.length < 2 ^ 31 := hl
    rw [BitVec.toInt_eq_toNat_of_lt (by rw [BitVec.toNat_ofNat]; omega), BitVec.toNat_ofNat, Nat.mod_eq_of_lt (by omega)]
  refine Reads.bind (f := fun r n (count : I32) => peekObjectFixedArray (dec r) true n count.toInt)
    (reads_int32 (BitVec.ofNat 32 xs.length)) ?_
  rw [e]
  have h2 : ((xs.length : Int) ≥ 0) := by omega
  simp only [peekObjectFixedArray, if_pos h2, Int.toNat_natCast]
  exact (reads_items f g dec xs h).map some

/-! ### The Go types of the requests -/

/-- The reflective decoder of a type reads `b` to `v`. -/
abbrev ReadsTy (t : Ty) (b : Bytes) (v : t.den) : Prop := Reads (fun r off => peekObjectWorker t r off false false) b (some v)

theorem readsTy_int16 (v : I16) : ReadsTy .int16 (Spec.int16 v) v := by
  simpa only [ReadsTy, peekObjectWorker] using (reads_int16 v).map some

theorem readsTy_int32 (v : I32) : ReadsTy .int32 (Spec.int32 v) v := by
  simpa only [ReadsTy, peekObjectWorker] using (reads_int32 v).map some

theorem readsTy_int64 (v : I64) : ReadsTy .int64 (Spec.int64 v) v := by
  simpa only [ReadsTy, peekObjectWorker] using (reads_int64 v).map some

theorem readsTy_str (s : Bytes) (h : Spec.ShortStr s) : ReadsTy .string (Spec.str s) s := by
  have := (reads_nullableStr (some s) (by intro x hx; cases hx; exact h)).map fun s : Option Bytes => some (s.getD [])
  exact this.congr fun r off => by rw [peekObjectWorker]

theorem readsTy_nullableStr (s : Option Bytes) (h : ∀ x ∈ s, Spec.ShortStr x) : ReadsTy .nullableString (Spec.nullableStr s) s := by
  simpa only [ReadsTy, peekObjectWorker] using (reads_nullableStr s h).map some

theorem readsTy_bytes (s : Bytes) (h : Spec.ShortList s) : ReadsTy .bytes (Spec.bytes s) (some s) := by
  have hf : s.flatMap (fun x => [x]) = s := by simp
  have := (reads_array (fun x : UInt8 => [x]) id (fun r o => (peekUint8 r o).map some) s h ?_).map (Option.map some)
  · rw [Spec.array, hf, List.map_id] at this
    exact this.congr fun r off => by rw [peekObjectWorker]; rfl
  · intro x _
    have h2 := ((reads_fixed [x]).map fun data => UInt8.ofNat (getBE (data.take 1))).map some
    have e : UInt8.ofNat (getBE ([x].take 1)) = x := by simp [getBE_cons]
    rw [e] at h2
    exact h2

theorem readsTy_array {α : Type} (e : Ty) (he : e.assignable = true) (f : α → Bytes) (g : α → e.den) (xs : List α) (hl : Spec.ShortList xs)
    (h : ∀ x ∈ xs, ReadsTy e (f x) (g x)) : ReadsTy (.slice e) (Spec.array f xs) (some (xs.map g)) := by
  have := (reads_array f g (fun r o => peekObjectWorker e r o false false) xs hl h).map (Option.map some)
  exact this.congr fun r off => by rw [peekObjectWorker, he]; rfl

/-- The struct decoder reads `b` to `v`. -/
abbrev ReadsFs (fs : Fields) (b : Bytes) (v : fs.den) : Prop := Reads (fun r off => peekObjectStruct fs r off) b v

theorem readsFs_nil : ReadsFs .nil [] () := Reads.pure ()

theorem readsFs_cons {name : String} {t : Ty} {rest : Fields} {b bs : Bytes} {v : t.den} {vs : rest.den} (ha : t.assignable = true)
    (h : ReadsTy t b v) (hs : ReadsFs rest bs vs) : ReadsFs (fld name t rest) (b ++ bs) (v, vs) := by
  have := Reads.bind (f := fun r n (x : Option t.den) => match x with
    | none => Res.panic
    | some x => if t.assignable then (peekObjectStruct rest r n).map (x, ·) else .panic) h
    (by simp only [ha, if_true]; exact hs.map (v, ·))
  exact this.congr fun r off => by rw [peekObjectStruct]; rfl

theorem readsTy_struct {fs : Fields} {b : Bytes} {v : fs.den} (h : ReadsFs fs b v) : ReadsTy (.struct fs) b v := by
  simpa only [ReadsTy, peekObjectWorker] using h.map some

end KM
