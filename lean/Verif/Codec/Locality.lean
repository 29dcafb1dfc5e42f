import Verif.Codec.Decode
/-! Locality of the decoder: every `peek*` function satisfies `Local`. -/
namespace KM

theorem Local.congr {α : Type} {off : Nat} {f g : Reader → Res α} (h : Local off f) (e : ∀ r, g r = f r) :
    Local off g := by
  have : g = f := funext e
  rwa [this]

theorem local_peekFixedData (off len : Nat) : Local off (fun r => peekFixedData r off len) where
  ge := by
    intro r n v h
    simp only [peekFixedData, Reader.peek_eq] at h
    split at h
    · cases h
    · injection h; omega
  le := by
    intro r n v h _
    simp only [peekFixedData, Reader.peek_eq, decide_eq_true_eq] at h
    split at h
    · cases h
    · injection h; omega
  ok := by
    intro r n v h r' hw
    simp only [peekFixedData, Reader.peek_eq, decide_eq_true_eq] at h ⊢
    split at h
    · cases h
    · rename_i hl
      injection h with h1 h2
      subst h1
      have := take_eq_length hw (by omega)
      rw [if_neg (by omega), hw, h2]
  panic := by
    intro r h
    simp only [peekFixedData] at h
    split at h <;> cases h

theorem local_peekBool (off : Nat) : Local off (fun r => peekBool r off) := (local_peekFixedData off 1).map _
theorem local_peekInt8 (off : Nat) : Local off (fun r => peekInt8 r off) := (local_peekFixedData off 1).map _
theorem local_peekUint8 (off : Nat) : Local off (fun r => peekUint8 r off) := (local_peekFixedData off 1).map _
theorem local_peekInt16 (off : Nat) : Local off (fun r => peekInt16 r off) := (local_peekFixedData off 2).map _
theorem local_peekUint16 (off : Nat) : Local off (fun r => peekUint16 r off) := (local_peekFixedData off 2).map _
theorem local_peekInt32 (off : Nat) : Local off (fun r => peekInt32 r off) := (local_peekFixedData off 4).map _
theorem local_peekUint32 (off : Nat) : Local off (fun r => peekUint32 r off) := (local_peekFixedData off 4).map _
theorem local_peekInt64 (off : Nat) : Local off (fun r => peekInt64 r off) := (local_peekFixedData off 8).map _
theorem local_peekUint64 (off : Nat) : Local off (fun r => peekUint64 r off) := (local_peekFixedData off 8).map _
theorem local_peekFloat64 (off : Nat) : Local off (fun r => peekFloat64 r off) := (local_peekFixedData off 8).map _

/-- `peekNullableData16` written with the other primitives. -/
theorem peekNullableData16_eq (r : Reader) (off : Nat) :
    peekNullableData16 r off = (peekInt16 r off).bind fun next count =>
      if count.toInt < 0 then .ok next none
      else (peekFixedData r next count.toInt.toNat).map some := by
  simp only [peekNullableData16, peekInt16, peekFixedData]
  split
  · rfl
  · simp only [Res.map_ok, Res.bind_ok]
    split
    · rfl
    · split <;> rfl

theorem peekCompactNullableBytes_eq (r : Reader) (off : Nat) :
    peekCompactNullableBytes r off = (peekVarInt r off).bind fun next count =>
      if count.toInt ≤ 0 then .ok next none
      else (peekFixedData r next (count.toInt - 1).toNat).map some := by
  simp only [peekCompactNullableBytes, peekFixedData]
  congr; funext next count
  split
  · rfl
  · split <;> rfl

theorem peekNullableBytes_eq (r : Reader) (off : Nat) :
    peekNullableBytes r off = (peekInt32 r off).bind fun next length =>
      if length.toInt < 0 then .ok next none
      else (peekFixedData r next length.toInt.toNat).map some := by
  simp only [peekNullableBytes, peekFixedData]
  congr; funext next count
  split
  · rfl
  · split <;> rfl

theorem local_peekNullableData16 (off : Nat) : Local off (fun r => peekNullableData16 r off) := by
  refine Local.congr ((local_peekInt16 off).bind (g := fun r next count =>
      if count.toInt < 0 then .ok next none
      else (peekFixedData r next count.toInt.toNat).map some) ?_) (fun r => peekNullableData16_eq r off)
  intro n v _
  by_cases h : v.toInt < 0
  · simp only [if_pos h]; exact Local.pure n none
  · simp only [if_neg h]; exact (local_peekFixedData n _).map _

theorem local_peekCompactNullableBytes (off : Nat) : Local off (fun r => peekCompactNullableBytes r off) := by
  refine Local.congr ((local_peekVarInt off).bind (g := fun r next count =>
      if count.toInt ≤ 0 then .ok next none
      else (peekFixedData r next (count.toInt - 1).toNat).map some) ?_) (fun r => peekCompactNullableBytes_eq r off)
  intro n v _
  by_cases h : v.toInt ≤ 0
  · simp only [if_pos h]; exact Local.pure n none
  · simp only [if_neg h]; exact (local_peekFixedData n _).map _

theorem local_peekNullableBytes (off : Nat) : Local off (fun r => peekNullableBytes r off) := by
  refine Local.congr ((local_peekInt32 off).bind (g := fun r next count =>
      if count.toInt < 0 then .ok next none
      else (peekFixedData r next count.toInt.toNat).map some) ?_) (fun r => peekNullableBytes_eq r off)
  intro n v _
  by_cases h : v.toInt < 0
  · simp only [if_pos h]; exact Local.pure n none
  · simp only [if_neg h]; exact (local_peekFixedData n _).map _

theorem local_peekItems {α : Type} (f : Reader → Nat → Res (Option α)) (asg : Bool)
    (hf : ∀ o, Local o (fun r => f r o)) (k off : Nat) : Local off (fun r => peekItems (f r) asg k off) := by
  induction k generalizing off with
  | zero => exact Local.pure off []
  | succ k ih =>
    simp only [peekItems]
    refine (hf off).bind (g := fun r next item => match item with
      | none => .panic
      | some x => if asg then (peekItems (f r) asg k next).map (x :: ·) else .panic) ?_
    intro n v _
    cases v with
    | none => exact Local.const_panic n
    | some x =>
      cases asg with
      | true => exact (ih n).map _
      | false => exact Local.const_panic n

theorem local_peekObjectFixedArray {α : Type} (f : Reader → Nat → Res (Option α)) (asg : Bool)
    (hf : ∀ o, Local o (fun r => f r o)) (off : Nat) (len : Int) :
    Local off (fun r => peekObjectFixedArray (f r) asg off len) := by
  unfold peekObjectFixedArray
  by_cases h : len ≥ 0
  · simp only [if_pos h]; exact (local_peekItems f asg hf _ off).map _
  · simp only [if_neg h]; exact Local.pure off none

theorem local_peekObjectVarArray {α : Type} (f : Reader → Nat → Res (Option α)) (asg : Bool)
    (hf : ∀ o, Local o (fun r => f r o)) (off : Nat) :
    Local off (fun r => peekObjectVarArray (f r) asg r off) :=
  (local_peekInt32 off).bind (g := fun r next (length : I32) => peekObjectFixedArray (f r) asg next length.toInt)
    (fun n v _ => local_peekObjectFixedArray f asg hf n v.toInt)

theorem local_peekObjectCompactVarArray {α : Type} (f : Reader → Nat → Res (Option α)) (asg : Bool)
    (hf : ∀ o, Local o (fun r => f r o)) (off : Nat) :
    Local off (fun r => peekObjectCompactVarArray (f r) asg r off) := by
  refine (local_peekVarInt off).bind (g := fun r next length =>
    if length = 0 then .ok next none else peekObjectFixedArray (f r) asg next (length - 1).toInt) ?_
  intro n v _
  by_cases h : v = 0
  · simp only [if_pos h]; exact Local.pure n none
  · simp only [if_neg h]; exact local_peekObjectFixedArray f asg hf n _

mutual
theorem local_peekObjectWorker : (t : Ty) → (nullable compact : Bool) → (off : Nat) →
    Local off (fun r => peekObjectWorker t r off nullable compact)
  | .bool, _, _, off => by unfold peekObjectWorker; exact (local_peekBool off).map _
  | .int8, _, _, off => by unfold peekObjectWorker; exact (local_peekInt8 off).map _
  | .int16, _, _, off => by unfold peekObjectWorker; exact (local_peekInt16 off).map _
  | .varInt, _, _, off => by unfold peekObjectWorker; exact (local_peekVarInt off).map _
  | .int32, _, _, off => by unfold peekObjectWorker; exact (local_peekInt32 off).map _
  | .int, _, _, off => by unfold peekObjectWorker; exact (local_peekInt32 off).map _
  | .varInt64, _, _, off => by unfold peekObjectWorker; exact (local_peekVarInt64 off).map _
  | .int64, _, _, off => by unfold peekObjectWorker; exact (local_peekInt64 off).map _
  | .uint, _, _, off => by unfold peekObjectWorker; exact (local_peekUint32 off).map _
  | .uint8, _, _, off => by unfold peekObjectWorker; exact (local_peekUint8 off).map _
  | .uint16, _, _, off => by unfold peekObjectWorker; exact (local_peekUint16 off).map _
  | .varUint, _, _, off => by unfold peekObjectWorker; exact (local_peekVarUint off).map _
  | .uint32, _, _, off => by unfold peekObjectWorker; exact (local_peekUint32 off).map _
  | .varUint64, _, _, off => by unfold peekObjectWorker; exact (local_peekVarUint64 off).map _
  | .uint64, _, _, off => by unfold peekObjectWorker; exact (local_peekUint64 off).map _
  | .float64, _, _, off => by unfold peekObjectWorker; exact (local_peekFloat64 off).map _
  | .uuid, _, _, off => by
      unfold peekObjectWorker
      refine (local_peekFixedData off 16).bind (g := fun _ next (bytes : Bytes) =>
        if h : bytes.length = 16 then .ok next (some (⟨bytes, h⟩ : UUID)) else .panic) ?_
      intro n v _
      by_cases h : v.length = 16
      · simp only [dif_pos h]; exact Local.pure n _
      · simp only [dif_neg h]; exact Local.const_panic n
  | .array e, _, _, off => by
      unfold peekObjectWorker
      exact (local_peekObjectCompactVarArray (fun r o => peekObjectWorker e r o false false) e.assignable
        (fun o => local_peekObjectWorker e false false o) off).map _
  | .nullableBytes, _, _, off => by unfold peekObjectWorker; exact (local_peekNullableBytes off).map _
  | .compactNullableBytes, _, _, off => by unfold peekObjectWorker; exact (local_peekCompactNullableBytes off).map _
  | .bytes, _, compact, off => by
      unfold peekObjectWorker
      cases compact with
      | true => exact (local_peekObjectCompactVarArray (fun r o => (peekUint8 r o).map some) true
          (fun o => (local_peekUint8 o).map _) off).map _
      | false => exact (local_peekObjectVarArray (fun r o => (peekUint8 r o).map some) true
          (fun o => (local_peekUint8 o).map _) off).map _
  | .compactBytes, _, compact, off => by
      unfold peekObjectWorker
      cases compact with
      | true => exact (local_peekObjectCompactVarArray (fun r o => (peekUint8 r o).map some) true
          (fun o => (local_peekUint8 o).map _) off).map _
      | false => exact (local_peekObjectVarArray (fun r o => (peekUint8 r o).map some) true
          (fun o => (local_peekUint8 o).map _) off).map _
  | .slice e, _, compact, off => by
      unfold peekObjectWorker
      cases compact with
      | true => exact (local_peekObjectCompactVarArray (fun r o => peekObjectWorker e r o false false) e.assignable
          (fun o => local_peekObjectWorker e false false o) off).map _
      | false => exact (local_peekObjectVarArray (fun r o => peekObjectWorker e r o false false) e.assignable
          (fun o => local_peekObjectWorker e false false o) off).map _
  | .compactString, _, _, off => by unfold peekObjectWorker; exact (local_peekCompactNullableBytes off).map _
  | .string, _, _, off => by unfold peekObjectWorker; exact (local_peekNullableData16 off).map _
  | .struct fs, _, _, off => by unfold peekObjectWorker; exact (local_peekObjectStruct fs off).map _
  | .compactNullableString, _, _, off => by unfold peekObjectWorker; exact (local_peekCompactNullableBytes off).map _
  | .nullableString, _, _, off => by unfold peekObjectWorker; exact (local_peekNullableData16 off).map _
  | .ptr t, _, _, off => by
      cases t with
      | struct fs => unfold peekObjectWorker; exact (local_peekObjectStruct fs off).map _
      | _ => unfold peekObjectWorker; exact Local.const_panic off
  | .messageSetV1, _, _, off => by unfold peekObjectWorker; exact Local.const_panic off
theorem local_peekObjectStruct : (fs : Fields) → (off : Nat) → Local off (fun r => peekObjectStruct fs r off)
  | .nil, off => by unfold peekObjectStruct; exact Local.pure off ()
  | .cons _ tag t rest, off => by
      unfold peekObjectStruct
      refine (local_peekObjectWorker t _ _ off).bind (g := fun r next v => match v with
        | none => .panic
        | some x => if t.assignable then (peekObjectStruct rest r next).map (x, ·) else .panic) ?_
      intro n v _
      cases v with
      | none => exact Local.const_panic n
      | some x =>
        cases ha : t.assignable with
        | true => exact (local_peekObjectStruct rest n).map _
        | false => exact Local.const_panic n
end

theorem local_peekObject (t : Ty) (off : Nat) : Local off (fun r => peekObject t r off) :=
  local_peekObjectWorker t false false off

end KM
