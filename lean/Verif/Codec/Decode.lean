import Verif.Codec.Encode
/-
The decoder, /repo/decoder.go. Offsets are naturals (`next = -1` is `Res.short`); no addition in the
decoder can overflow a 64-bit int, since every successful offset is at most 4096.
-/
namespace KM

/-- /repo/decoder.go:231-240 -/
def peekFixedData (r : Reader) (offset length : Nat) : Res Bytes :=
  let p := r.peek (offset + length)
  if p.2 then .short else .ok (offset + length) (p.1.drop offset)

/-- /repo/decoder.go:242-252 -/
def peekBool (r : Reader) (offset : Nat) : Res Bool :=
  (peekFixedData r offset 1).map fun data => getBE (data.take 1) != 0
/-- /repo/decoder.go:254-262 -/
def peekInt8 (r : Reader) (offset : Nat) : Res I8 :=
  (peekFixedData r offset 1).map fun data => BitVec.ofNat 8 (getBE (data.take 1))
/-- /repo/decoder.go:264-272 -/
def peekUint8 (r : Reader) (offset : Nat) : Res UInt8 :=
  (peekFixedData r offset 1).map fun data => UInt8.ofNat (getBE (data.take 1))
/-- /repo/decoder.go:274-282 -/
def peekInt16 (r : Reader) (offset : Nat) : Res I16 :=
  (peekFixedData r offset 2).map fun data => BitVec.ofNat 16 (getBE (data.take 2))
/-- /repo/decoder.go:284-292 -/
def peekUint16 (r : Reader) (offset : Nat) : Res (BitVec 16) :=
  (peekFixedData r offset 2).map fun data => BitVec.ofNat 16 (getBE (data.take 2))
/-- /repo/decoder.go:294-302 -/
def peekInt32 (r : Reader) (offset : Nat) : Res I32 :=
  (peekFixedData r offset 4).map fun data => BitVec.ofNat 32 (getBE (data.take 4))
/-- /repo/decoder.go:304-312 -/
def peekUint32 (r : Reader) (offset : Nat) : Res (BitVec 32) :=
  (peekFixedData r offset 4).map fun data => BitVec.ofNat 32 (getBE (data.take 4))
/-- /repo/decoder.go:314-322 -/
def peekInt64 (r : Reader) (offset : Nat) : Res I64 :=
  (peekFixedData r offset 8).map fun data => BitVec.ofNat 64 (getBE (data.take 8))
/-- /repo/decoder.go:324-332 -/
def peekUint64 (r : Reader) (offset : Nat) : Res (BitVec 64) :=
  (peekFixedData r offset 8).map fun data => BitVec.ofNat 64 (getBE (data.take 8))
/-- /repo/decoder.go:334-343; the bit pattern. -/
def peekFloat64 (r : Reader) (offset : Nat) : Res (BitVec 64) :=
  (peekFixedData r offset 8).map fun data => BitVec.ofNat 64 (getBE (data.take 8))

/-- /repo/decoder.go:15-39; `none` is a nil slice. -/
def peekNullableData16 (r : Reader) (offset : Nat) : Res (Option Bytes) :=
  let p := r.peek (offset + 2)
  if p.2 then .short
  else
    let count : Int := (BitVec.ofNat 16 (getBE ((p.1.drop offset).take 2))).toInt
    if count < 0 then .ok (offset + 2) none
    else
      let start := offset + 2
      let next := start + count.toNat
      let q := r.peek next
      if q.2 then .short else .ok next (some (q.1.drop start))

/-- /repo/decoder.go:72-92 -/
def peekCompactNullableBytes (r : Reader) (offset : Nat) : Res (Option Bytes) :=
  (peekVarInt r offset).bind fun next count =>
    if count.toInt ≤ 0 then .ok next none
    else
      let count := (count.toInt - 1).toNat
      let p := r.peek (next + count)
      if p.2 then .short else .ok (next + count) (some (p.1.drop next))

/-- /repo/decoder.go:124-137 -/
def peekNullableString (r : Reader) (offset : Nat) : Res (Option Bytes) := peekNullableData16 r offset

/-- /repo/decoder.go:139-152 -/
def peekCompactNullableString (r : Reader) (offset : Nat) : Res (Option Bytes) :=
  peekCompactNullableBytes r offset

/-- /repo/decoder.go:164-184 -/
def peekNullableBytes (r : Reader) (offset : Nat) : Res (Option Bytes) :=
  (peekInt32 r offset).bind fun next length =>
    if length.toInt < 0 then .ok next none
    else
      let start := next
      let next := next + length.toInt.toNat
      let p := r.peek next
      if p.2 then .short else .ok next (some (p.1.drop start))

/-- The element loop of `peekObjectFixedArray`, /repo/decoder.go:520-527. `f` decodes one element; an
untyped nil element, or one whose type is not assignable to the slice's element type, makes
`reflect.Append` panic. -/
def peekItems {α : Type} (f : Nat → Res (Option α)) (assignable : Bool) : Nat → Nat → Res (List α)
  | 0, next => .ok next []
  | k + 1, next => (f next).bind fun next item =>
    match item with
    | none => .panic
    | some x => if assignable then (peekItems f assignable k next).map (x :: ·) else .panic

/-- /repo/decoder.go:516-532; `none` is the untyped nil `obj` left by a negative length. The
room reserved by `MakeSlice(.., length)` is modelled in `Alloc.lean`. -/
def peekObjectFixedArray {α : Type} (f : Nat → Res (Option α)) (assignable : Bool) (offset : Nat)
    (length : Int) : Res (Option (List α)) :=
  if length ≥ 0 then (peekItems f assignable length.toNat offset).map some else .ok offset none

/-- /repo/decoder.go:534-541 -/
def peekObjectVarArray {α : Type} (f : Nat → Res (Option α)) (assignable : Bool) (r : Reader)
    (offset : Nat) : Res (Option (List α)) :=
  (peekInt32 r offset).bind fun next length => peekObjectFixedArray f assignable next length.toInt

/-- /repo/decoder.go:543-554; `length-1` is 32-bit arithmetic (and cannot wrap to a non-negative
value except from `length > 0`, or from the minimum, which becomes the maximum). -/
def peekObjectCompactVarArray {α : Type} (f : Nat → Res (Option α)) (assignable : Bool) (r : Reader)
    (offset : Nat) : Res (Option (List α)) :=
  (peekVarInt r offset).bind fun next length =>
    if length = 0 then .ok next none
    else peekObjectFixedArray f assignable next (length - 1).toInt

/-- Whether `reflect.Value.Set`/`reflect.Append` accepts the decoded value at this static type: a Go
array type is decoded to a slice, which is not assignable to it. -/
def Ty.assignable : Ty → Bool
  | .array _ => false
  | _ => true

mutual
/-- /repo/decoder.go:349-499. The result is `Option t.den`: `none` is an untyped nil `obj`. -/
def peekObjectWorker : (t : Ty) → Reader → Nat → (nullable compact : Bool) → Res (Option t.den)
  | .bool, r, offset, _, _ => (peekBool r offset).map some
  | .int8, r, offset, _, _ => (peekInt8 r offset).map some
  | .int16, r, offset, _, _ => (peekInt16 r offset).map some
  | .varInt, r, offset, _, _ => (peekVarInt r offset).map some
  | .int32, r, offset, _, _ => (peekInt32 r offset).map some
  | .int, r, offset, _, _ => (peekInt32 r offset).map fun v => some (v.signExtend 64)
  | .varInt64, r, offset, _, _ => (peekVarInt64 r offset).map some
  | .int64, r, offset, _, _ => (peekInt64 r offset).map some
  | .uint, r, offset, _, _ => (peekUint32 r offset).map fun v => some (v.setWidth 64)
  | .uint8, r, offset, _, _ => (peekUint8 r offset).map some
  | .uint16, r, offset, _, _ => (peekUint16 r offset).map some
  | .varUint, r, offset, _, _ => (peekVarUint r offset).map some
  | .uint32, r, offset, _, _ => (peekUint32 r offset).map some
  | .varUint64, r, offset, _, _ => (peekVarUint64 r offset).map some
  | .uint64, r, offset, _, _ => (peekUint64 r offset).map some
  | .float64, r, offset, _, _ => (peekFloat64 r offset).map some
  | .uuid, r, offset, _, _ => (peekFixedData r offset 16).bind fun next bytes =>
      if h : bytes.length = 16 then .ok next (some ⟨bytes, h⟩) else .panic
  | .array e, r, offset, _, _ =>
      (peekObjectCompactVarArray (fun o => peekObjectWorker e r o false false) e.assignable r offset).map
        (Option.map some)
  | .nullableBytes, r, offset, _, _ => (peekNullableBytes r offset).map some
  | .compactNullableBytes, r, offset, _, _ => (peekCompactNullableBytes r offset).map some
  -- other byte slices are read as arrays of uint8, lines 433-439
  | .bytes, r, offset, _, compact =>
      (if compact then peekObjectCompactVarArray (fun o => (peekUint8 r o).map some) true r offset
       else peekObjectVarArray (fun o => (peekUint8 r o).map some) true r offset).map (Option.map some)
  | .compactBytes, r, offset, _, compact =>
      (if compact then peekObjectCompactVarArray (fun o => (peekUint8 r o).map some) true r offset
       else peekObjectVarArray (fun o => (peekUint8 r o).map some) true r offset).map (Option.map some)
  | .slice e, r, offset, _, compact =>
      (if compact then peekObjectCompactVarArray (fun o => peekObjectWorker e r o false false) e.assignable r offset
       else peekObjectVarArray (fun o => peekObjectWorker e r o false false) e.assignable r offset).map
        (Option.map some)
  | .compactString, r, offset, _, _ => (peekCompactNullableString r offset).map fun s => some (s.getD [])
  | .string, r, offset, _, _ => (peekNullableString r offset).map fun s => some (s.getD [])
  | .struct fs, r, offset, _, _ => (peekObjectStruct fs r offset).map some
  | .compactNullableString, r, offset, _, _ => (peekCompactNullableString r offset).map some
  | .nullableString, r, offset, _, _ => (peekNullableString r offset).map some
  -- unnamed pointers, lines 476-494: only pointers to structs
  | .ptr t, r, offset, _, _ =>
      match t with
      | .struct fs => (peekObjectStruct fs r offset).map fun v => some (some v)
      | _ => .panic
  -- messageSetV1 has unexported fields: `f.Set` panics (after decoding the first field)
  | .messageSetV1, _, _, _, _ => .panic
/-- /repo/decoder.go:556-574; setting a field from an untyped nil, or from a value that is not
assignable, panics in `reflect.Value.Set`. -/
def peekObjectStruct : (fs : Fields) → Reader → Nat → Res fs.den
  | .nil, _, offset => .ok offset ()
  | .cons _ tag t rest, r, offset =>
    (peekObjectWorker t r offset (kafkaTags tag).1 (kafkaTags tag).2).bind fun next v =>
      match v with
      | none => .panic
      | some x => if t.assignable then (peekObjectStruct rest r next).map (x, ·) else .panic
end

/-- /repo/decoder.go:345-347 -/
def peekObject (t : Ty) (r : Reader) (offset : Nat) : Res (Option t.den) :=
  peekObjectWorker t r offset false false

/-- /repo/decoder.go:154-162 -/
def peekString (r : Reader) (offset : Nat) : Res Bytes :=
  (peekObject .string r offset).map fun s => s.getD []

end KM
