import Verif.Codec.Types
/-
The encoder, /repo/encoder.go. Writing to a `bufio.Writer` over a `bytes.Buffer` cannot fail, so an
encoder is modelled by the bytes it writes; `none` is a Go panic.
-/
namespace KM

/-- /repo/encoder.go:247-253 -/
def encodeBool (v : Bool) : Bytes := if v then [1] else [0]
/-- /repo/encoder.go:255-257 -/
def encodeInt8 (v : I8) : Bytes := [UInt8.ofNat v.toNat]
/-- /repo/encoder.go:259-263 -/
def encodeInt16 (v : I16) : Bytes := putBE 2 v.toNat
/-- /repo/encoder.go:265-269, 299-301 -/
def encodeInt32 (v : I32) : Bytes := putBE 4 v.toNat
/-- /repo/encoder.go:271-275 -/
def encodeInt64 (v : I64) : Bytes := putBE 8 v.toNat
/-- /repo/encoder.go:277-279 -/
def encodeUint8 (v : UInt8) : Bytes := [v]
/-- /repo/encoder.go:281-285 -/
def encodeUint16 (v : BitVec 16) : Bytes := putBE 2 v.toNat
/-- /repo/encoder.go:287-291 -/
def encodeUint32 (v : BitVec 32) : Bytes := putBE 4 v.toNat
/-- /repo/encoder.go:293-297 -/
def encodeUint64 (v : BitVec 64) : Bytes := putBE 8 v.toNat
/-- /repo/encoder.go:345-348 -/
def encodeVarInt (v : BitVec 32) : Bytes := makeZigzag32 v
/-- /repo/encoder.go:350-353 -/
def encodeVarUint (v : BitVec 32) : Bytes := makeVarUint v
/-- /repo/encoder.go:355-358 -/
def encodeVarInt64 (v : BitVec 64) : Bytes := makeZigzag64 v
/-- /repo/encoder.go:360-363 -/
def encodeVarUint64 (v : BitVec 64) : Bytes := makeVarUint64 v
/-- /repo/encoder.go:365-368; `MarshalBinary` returns the 16 bytes. -/
def encodeUuid (v : UUID) : Bytes := v.1
/-- /repo/encoder.go:370-374; the value is the bit pattern. -/
def encodeFloat64 (v : BitVec 64) : Bytes := putBE 8 v.toNat

/-- /repo/encoder.go:384-391; `int16(len(*v))` wraps. -/
def encodeNullableString : Option Bytes → Bytes
  | none => encodeInt16 (-1)
  | some s => encodeInt16 (BitVec.ofNat 16 s.length) ++ s
/-- /repo/encoder.go:393-400 -/
def encodeCompactNullableString : Option Bytes → Bytes
  | none => encodeVarInt 0
  | some s => encodeVarInt (BitVec.ofNat 32 (s.length + 1)) ++ s
/-- /repo/encoder.go:376-378 -/
def encodeString (v : Bytes) : Bytes := encodeNullableString (some v)
/-- /repo/encoder.go:380-382 -/
def encodeCompactString (v : Bytes) : Bytes := encodeCompactNullableString (some v)

/-- /repo/encoder.go:410-417 -/
def encodeNullableBytes : Option Bytes → Bytes
  | none => encodeInt32 (-1)
  | some b => encodeUint32 (BitVec.ofNat 32 b.length) ++ b
/-- /repo/encoder.go:419-426 -/
def encodeCompactNullableBytes : Option Bytes → Bytes
  | none => encodeVarInt 0
  | some b => encodeVarInt (BitVec.ofNat 32 (b.length + 1)) ++ b
/-- /repo/encoder.go:402-404 -/
def encodeBytes (v : Option Bytes) : Bytes := encodeNullableBytes v
/-- /repo/encoder.go:406-408 -/
def encodeCompactBytes (v : Option Bytes) : Bytes := encodeCompactNullableBytes v

/-- `case reflect.String` for the type `string`, /repo/encoder.go:109-135. `obj = none` is the nil
interface (a nil `*string`, reached through lines 185-186). `obj.(*string)` on a `string` (line 117)
panics. -/
def encodeStringCase (obj : Option Bytes) (nullable compact : Bool) : Option Bytes :=
  if compact then
    if nullable then
      match obj with
      | none => some (encodeCompactNullableString none)
      | some _ => none
    else obj.map encodeCompactString
  else if nullable then some (encodeNullableString obj)
  else obj.map encodeString

/-- A `messageV1` struct through `encodeStruct` (/repo/encoder.go:233-245): its fields in order, no
tags. `encodeMessageV1_eq` below shows this is what the reflective path yields. -/
def encodeMessageV1 (m : MessageV1) : Bytes :=
  encodeInt64 m.offset ++ (encodeInt32 m.messageSize ++ (encodeInt32 m.crc ++ (encodeInt8 m.magicByte ++
    (encodeInt8 m.attributes ++ (encodeInt64 m.timestamp ++ (encodeBytes m.key ++ encodeBytes m.value))))))

/-- /repo/encoder.go:477-482; `encodeObject(writer, ms.totalSize)` writes `int32(totalSize)`. -/
def encodeMessageSetV1 (ms : MessageSetV1) : Bytes :=
  encodeInt32 (BitVec.ofInt 32 ms.totalSize) ++ ms.msgs.flatMap encodeMessageV1

/-- The element loop of `encodeArray`/`encodeCompactArray`, /repo/encoder.go:434-437, 447-450. -/
def encodeItems {α : Type} (f : α → Option Bytes) : List α → Option Bytes
  | [] => some []
  | x :: xs => do
    let b ← f x
    let bs ← encodeItems f xs
    return b ++ bs

mutual
/-- /repo/encoder.go:51-203 -/
def encodeObjectWorker : (t : Ty) → t.den → (nullable compact : Bool) → Option Bytes
  | .bool, v, _, _ => some (encodeBool v)
  | .int8, v, _, _ => some (encodeInt8 v)
  | .int16, v, _, _ => some (encodeInt16 v)
  | .varInt, v, _, _ => some (encodeVarInt v)
  | .int32, v, _, compact => some (if compact then encodeVarInt v else encodeInt32 v)
  | .int, v, _, compact => some (if compact then encodeVarInt (v.setWidth 32) else encodeInt32 (v.setWidth 32))
  | .varInt64, v, _, _ => some (encodeVarInt64 v)
  | .int64, v, _, compact => some (if compact then encodeVarInt64 v else encodeInt64 v)
  | .uint8, v, _, _ => some (encodeUint8 v)
  | .uint16, v, _, _ => some (encodeUint16 v)
  | .varUint, v, _, _ => some (encodeVarUint v)
  | .uint32, v, _, compact => some (if compact then encodeVarUint v else encodeUint32 v)
  | .uint, v, _, compact => some (if compact then encodeVarUint (v.setWidth 32) else encodeUint32 (v.setWidth 32))
  | .varUint64, v, _, _ => some (encodeVarUint64 v)
  | .uint64, v, _, compact => some (if compact then encodeVarUint64 v else encodeUint64 v)
  | .float64, v, _, _ => some (encodeFloat64 v)
  | .compactString, v, _, _ => some (encodeCompactString v)
  | .string, v, nullable, compact => encodeStringCase (some v) nullable compact
  | .messageSetV1, v, _, _ => some (encodeMessageSetV1 v)
  | .struct fs, v, _, _ => encodeStruct fs v
  -- byte slices, lines 145-165; with `compact` or `nullable`, `obj.([]byte)` panics on the named types
  | .bytes, v, _, compact => some (if compact then encodeCompactBytes v else encodeBytes v)
  | .nullableBytes, v, nullable, compact => if compact || nullable then none else some (encodeNullableBytes v)
  | .compactNullableBytes, v, nullable, compact =>
      if compact || nullable then none else some (encodeCompactNullableBytes v)
  | .compactBytes, v, nullable, compact => if compact || nullable then none else some (encodeCompactBytes v)
  -- object slices, lines 166-173, with encodeArray (428-439) and encodeCompactArray (441-452)
  | .slice e, v, _, compact =>
      match v with
      | none => some (if compact then encodeVarInt 0 else encodeInt32 (-1))
      | some xs => do
        let body ← encodeItems (fun x => encodeObjectWorker e x false false) xs
        return (if compact then encodeVarInt (BitVec.ofNat 32 xs.length + 1)
          else encodeInt32 (BitVec.ofNat 32 xs.length)) ++ body
  | .compactNullableString, v, _, _ => some (encodeCompactNullableString v)
  | .nullableString, v, _, _ => some (encodeNullableString v)
  -- unnamed pointers, lines 182-194, with targetType (205-231): only a nil *string is supported
  | .ptr t, v, _, compact =>
      match v with
      | some x => encodeObjectWorker t x true compact
      | none =>
        match t with
        | .string => encodeStringCase none true compact
        | _ => none
  -- default case, lines 195-202
  | .uuid, v, _, _ => some (encodeUuid v)
  | .array _, _, _, _ => none
/-- /repo/encoder.go:233-245; only exported fields are listed in `Fields`. -/
def encodeStruct : (fs : Fields) → fs.den → Option Bytes
  | .nil, _ => some []
  | .cons _ tag t rest, (v, vs) => do
    let b ← encodeObjectWorker t v (kafkaTags tag).1 (kafkaTags tag).2
    let bs ← encodeStruct rest vs
    return b ++ bs
end

/-- /repo/encoder.go:47-49 -/
def encodeObject (t : Ty) (v : t.den) : Option Bytes := encodeObjectWorker t v false false

/-- The Go struct type of /repo/encoder.go:35-44. -/
def messageV1Ty : Ty := .struct (.cons "Offset" [] .int64 (.cons "MessageSize" [] .int32 (.cons "Crc" [] .int32
  (.cons "MagicByte" [] .int8 (.cons "Attributes" [] .int8 (.cons "Timestamp" [] .int64
  (.cons "Key" [] .bytes (.cons "Value" [] .bytes .nil))))))))

def MessageV1.toDen (m : MessageV1) : messageV1Ty.den :=
  (m.offset, m.messageSize, m.crc, m.magicByte, m.attributes, m.timestamp, m.key, m.value, ())

/-- The unrolled message encoder agrees with the reflective struct encoder. -/
theorem encodeMessageV1_eq (m : MessageV1) :
    encodeObject messageV1Ty m.toDen = some (encodeMessageV1 m) := by
  simp [encodeObject, messageV1Ty, MessageV1.toDen, encodeObjectWorker, encodeStruct, kafkaTags,
    encodeMessageV1]

end KM
