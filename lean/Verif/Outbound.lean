import Verif.Codec.Encode
/-
`kafkaResponse`, /repo/outbound-utils.go: an earlier writer of responses, which the mock does not use. A writer is modelled by the bytes it appends to `kr.packet`
(`bytes.Buffer`, which does not fail); `none` is a Go panic.
-/
namespace KM

/-- A Go value of type `any` given to `writeValue`: nil, a value of one of the types of the codec, or a slice of such values (nil: `none`). -/
inductive GoAny where
  | null
  | of (t : Ty) (v : t.den)
  | anys (vs : Option (List GoAny))

/-- /repo/outbound-utils.go:92-99 -/
def outNullableString : Option Bytes → Bytes
  | none => encodeInt16 0
  | some s => encodeInt16 (BitVec.ofNat 16 s.length) ++ s

/-- /repo/outbound-utils.go:101-108 -/
def outCompactNullableString : Option Bytes → Bytes
  | none => makeZigzag32 0
  | some s => makeZigzag32 (BitVec.ofNat 32 s.length) ++ s

/-- /repo/outbound-utils.go:110-112, 118-121; a nil slice has length 0. -/
def outNullableBytes (v : Option Bytes) : Bytes := encodeUint32 (BitVec.ofNat 32 (v.getD []).length) ++ v.getD []

/-- /repo/outbound-utils.go:114-116, 123-130 -/
def outCompactNullableBytes : Option Bytes → Bytes
  | none => makeZigzag32 0
  | some b => makeZigzag32 (BitVec.ofNat 32 (b.length + 1)) ++ b

/-- The cases of `writeValue`, /repo/outbound-utils.go:147-190, other than slices of `any`, with the writers of lines 35-90. (`writeInt8` to `writeFloat64` are the same as
the functions of /repo/encoder.go.) The other types of the codec are not supported. -/
def outValue : (t : Ty) → t.den → Option Bytes
  | .int8, v => some (encodeInt8 v)
  | .int16, v => some (encodeInt16 v)
  | .int32, v => some (encodeInt32 v)
  | .int64, v => some (encodeInt64 v)
  | .uint32, v => some (encodeUint32 v)
  | .varInt, v => some (makeZigzag32 v)
  | .varInt64, v => some (makeZigzag64 v)
  | .uuid, v => some (encodeUuid v)
  | .float64, v => some (encodeFloat64 v)
  | .string, v => some (outNullableString (some v))
  | .ptr .string, v => some (outNullableString v)
  | .nullableString, v => some (outNullableString v)
  | .compactString, v => some (outCompactNullableString (some v))
  | .compactNullableString, v => some (outCompactNullableString v)
  | .bytes, v => some (outNullableBytes v)
  | .compactBytes, v => some (outCompactNullableBytes v)
  | .nullableBytes, v => some (outNullableBytes v)
  | .compactNullableBytes, v => some (outCompactNullableBytes v)
  | _, _ => none

mutual
/-- `writeValue`, /repo/outbound-utils.go:147-190, with `writeArray`, lines 132-141. -/
def writeValue : GoAny → Option Bytes
  | .null => none
  | .of t v => outValue t v
  | .anys none => some (encodeInt32 0)
  | .anys (some vs) => (writeValues vs).map (encodeInt32 (BitVec.ofNat 32 vs.length + 1) ++ ·)
/-- The loop of `writeArray`, /repo/outbound-utils.go:137-139. -/
def writeValues : List GoAny → Option Bytes
  | [] => some []
  | v :: vs => (writeValue v).bind fun b => (writeValues vs).map (b ++ ·)
end

/-- The loop of `writeTags`, /repo/outbound-utils.go:203-213, over the tags in the order of their ids (lines 196-200). -/
def writeTagFields : List (Int × GoAny) → Option Bytes
  | [] => some []
  | (id, v) :: rest => (writeValue v).bind fun b =>
      (writeTagFields rest).map (makeZigzag32 (BitVec.ofInt 32 id) ++ makeZigzag32 (BitVec.ofNat 32 b.length) ++ outNullableBytes (some b) ++ ·)

/-- `writeTags`, /repo/outbound-utils.go:192-215. -/
def writeTags (tags : List (Int × GoAny)) : Option Bytes :=
  if tags = [] then some (encodeInt8 0)
  else (writeTagFields (tags.mergeSort fun a b => a.1 ≤ b.1)).map (makeZigzag32 (BitVec.ofNat 32 tags.length) ++ ·)

end KM
